import Verif.Lemmas.PhaseFrame
import Verif.Props.Frame

/-! The preparation of the data of a rotated waveform. -/

set_option linter.unusedSectionVars false

namespace GwEcc

namespace Turned

open Spec

section
variable {K C : Type} [Field K] [LinearOrder K] [IsStrictOrderedRing K] [FloorRing K]

theorem zip_half {x y x' y' : List K} (hx : Shifted x x') (hy : Shifted y y') :
    PyRel Shifted (npZip (fun a b => 1 / 2 * (a - b)) x y) (npZip (fun a b => 1 / 2 * (a - b)) x' y') := by
  obtain ⟨c, rfl⟩ := hx
  obtain ⟨d, rfl⟩ := hy
  refine (Filter.npZip_gen (fun a b : K => 1 / 2 * (a - b)) (fun a b : K => 1 / 2 * (a - b)) (· + c) (· + d) (· + 1 / 2 * (c - d))
    (fun a b => by ring) x y).mono fun a b h => ⟨_, h⟩

theorem gwQuantities_same {nd nd' : DataV K C} (h : DRel PN nd nd') (pr : Bool) {tag : String}
    (ht : tag = "" ∨ tag = "_zeroecc") :
    PyRel (fun r r' => r'.1 = r.1 ∧ Shifted r.2.1 r'.2.1 ∧ r'.2.2 = r.2.2) (gwQuantities pr nd tag)
      (gwQuantities pr nd' tag) := by
  unfold gwQuantities
  refine PyRel.bind (getR_eq h (PN_name (Or.inl rfl) ht)) fun a a' ha => ?_
  refine PyRel.bind (getR_phase h (PN_phase ht)) fun p p' hp => ?_
  subst ha
  refine PyRel.ite Iff.rfl (fun _ _ => ?_) fun _ _ => ?_
  · refine PyRel.bind (PyRel.same _) fun x _ hx => ?_
    refine PyRel.bind (hp.toD.getItem (2, 2)) fun y y' hy => ?_
    refine PyRel.bind (getR_eq h (PN_name (Or.inr (Or.inl rfl)) ht)) fun w w' hw => ?_
    subst hx hw
    refine PyRel.bind (PyRel.same _) fun z _ hz => ?_
    subst hz
    exact .ok ⟨rfl, hy, rfl⟩
  refine PyRel.ite Iff.rfl (fun _ _ => .error _) fun _ _ => ?_
  rw [hp.toD.has]
  refine PyRel.ite Iff.rfl (fun _ _ => .error _) fun _ _ => ?_
  refine PyRel.bind (PyRel.same _) fun x _ hx => ?_
  subst hx
  refine PyRel.bind (PyRel.same _) fun y _ hy => ?_
  subst hy
  refine PyRel.bind (PyRel.same _) fun A _ hA => ?_
  subst hA
  refine PyRel.bind (hp.toD.getItem (2, 2)) fun x2 x2' hx2 => ?_
  refine PyRel.bind (hp.toD.getItem (2, -2)) fun y2 y2' hy2 => ?_
  refine PyRel.bind (zip_half hx2 hy2) fun P P' hP => ?_
  refine PyRel.bind (getR_eq h (PN_name (Or.inr (Or.inl rfl)) ht)) fun w w' hw => ?_
  subst hw
  refine PyRel.bind (PyRel.same _) fun x _ hx => ?_
  subst hx
  refine PyRel.bind (PyRel.same _) fun y _ hy => ?_
  subst hy
  refine PyRel.bind (PyRel.same _) fun W _ hW => ?_
  subst hW
  exact .ok ⟨rfl, hP, rfl⟩

theorem get_shift' (c : K) (l : List K) (i : ℕ) : PyRel (fun a b => b = a + c) (pyGet l i) (pyGet (shift c l) i) :=
  PyRel.pyGet (s := (· + c)) l i

theorem last_shift (c : K) (l : List K) : PyRel (fun a b => b = a + c) (pyLast l) (pyLast (shift c l)) :=
  PyRel.pyLast (s := (· + c)) l

theorem indexBeforeMerger_shift (pi c : K) (p : List K) (pm n : K) :
    indexBeforeMerger pi (shift c p) (pm + c) n = indexBeforeMerger pi p pm n := by
  refine eq_of_rel ?_
  unfold indexBeforeMerger
  refine PyRel.bind (get_shift' c p 0) fun p0 p0' h0 => ?_
  subst h0
  refine PyRel.ite ?_ (fun _ _ => .error _) fun _ _ => ?_
  · rw [show pm + c - 4 * pi * n = pm - 4 * pi * n + c by ring, add_lt_add_iff_right]
  · have : (shift c p).map (fun x => |x - (pm + c - 4 * pi * n)|) = p.map fun x => |x - (pm - 4 * pi * n)| := by
      unfold shift
      rw [List.map_map]
      refine List.map_congr_left fun x _ => ?_
      simp only [Function.comp]
      congr 1
      ring
    rw [this]
    exact PyRel.refl (R := fun a b => b = a) (fun _ => rfl) _

theorem peakWidth_shift (pi c : K) (t p : List K) (pm : K) : peakWidth pi t (shift c p) (pm + c) = peakWidth pi t p pm := by
  unfold peakWidth
  simp only [indexBeforeMerger_shift]

theorem analyse_same (lib : WaveLib K C) (pr : Bool) {nd nd' : DataV K C} (h : DRel PN nd nd') (n : Option K) :
    PyRel (fun r r' => r' = r) (analyse lib pr nd n) (analyse lib pr nd' n) := by
  have h0 : ("" : String) = "" ∨ ("" : String) = "_zeroecc" := Or.inl rfl
  unfold analyse
  refine PyRel.bind (getArr_eq h (PN_name (name := "t") (suffix := "") (by simp) h0)) fun t t' ht => ?_
  refine PyRel.bind (getR_eq h (PN_name (name := "amplm") (suffix := "") (by simp) h0)) fun a a' ha => ?_
  subst ht ha
  refine PyRel.bind (PyRel.same _) fun total _ htot => ?_
  subst htot
  refine PyRel.bind (PyRel.same _) fun q _ hq => ?_
  subst hq
  obtain ⟨tM, _⟩ := q
  dsimp only
  refine PyRel.bind (PyRel.same _) fun mi _ hm => ?_
  subst hm
  refine PyRel.bind (gwQuantities_same h pr h0) fun q q' hq => ?_
  obtain ⟨amp, phase, omega⟩ := q
  obtain ⟨amp', phase', omega'⟩ := q'
  dsimp only at hq
  obtain ⟨rfl, ⟨c, rfl⟩, rfl⟩ := hq
  dsimp only
  refine PyRel.bind (PyRel.same _) fun aM _ haM => ?_
  subst haM
  refine PyRel.bind (get_shift' c phase mi) fun pM pM' hpM => ?_
  subst hpM
  refine PyRel.bind (PyRel.same _) fun oM _ hoM => ?_
  subst hoM
  refine PyRel.bind (get_shift' c phase 0) fun p0 p0' hp0 => ?_
  subst hp0
  refine PyRel.ite (by rw [add_lt_add_iff_right]) (fun _ _ => .error _) fun _ _ => ?_
  refine PyRel.ite Iff.rfl (fun _ _ => .error _) fun _ _ => ?_
  rw [peakWidth_shift]
  refine PyRel.bind (PyRel.same _) fun width _ hw => ?_
  subst hw
  cases n with
  | none => exact .ok rfl
  | some n =>
    dsimp only
    rw [indexBeforeMerger_shift]
    refine PyRel.ite Iff.rfl (fun _ _ => .error _) fun _ _ => ?_
    refine PyRel.bind (PyRel.same _) fun idx _ hi => ?_
    subst hi
    exact .ok rfl

theorem take_shift (c : K) (n : ℕ) (l : List K) : (shift c l).take n = shift c (l.take n) := by
  unfold shift; rw [List.map_take]

theorem cutEntry_phase (idx : ℕ) {e e' : Entry K C} (h : PhaseE e e') : PyRel PhaseE (cutEntry idx e) (cutEntry idx e') := by
  rcases h with ⟨d, d', rfl, rfl, hd⟩ | rfl
  · refine .ok (.inl ⟨_, _, rfl, rfl, ?_⟩)
    unfold ModesShifted FRel
    rw [List.forall₂_map_left_iff, List.forall₂_map_right_iff]
    refine List.Forall₂.imp ?_ hd
    rintro p q ⟨h1, c, h2⟩
    exact ⟨h1, c, by dsimp only; rw [h2, take_shift]⟩
  · exact PyRel.refl (fun _ => .inr rfl) _

theorem cutData_same (idx : ℕ) {nd nd' : DataV K C} (h : DRel PN nd nd') :
    PyRel (DRel PN) (cutData idx nd) (cutData idx nd') := by
  have h0 : ("" : String) = "" ∨ ("" : String) = "_zeroecc" := Or.inl rfl
  have ha : ∀ e e' : Entry K C, PN "amplm" e e' → e' = e := PN_name (name := "amplm") (suffix := "") (by simp) h0
  have ho : ∀ e e' : Entry K C, PN "omegalm" e e' → e' = e := PN_name (name := "omegalm") (suffix := "") (by simp) h0
  have ht : ∀ e e' : Entry K C, PN "t" e e' → e' = e := PN_name (name := "t") (suffix := "") (by simp) h0
  have hp : ∀ e e' : Entry K C, PN "phaselm" e e' → PhaseE e e' := PN_phase (suffix := "") h0
  unfold cutData
  refine PyRel.bind (h.getItem _) fun a a' haa => ?_
  rw [ha _ _ haa]
  refine PyRel.bind (PyRel.same _) fun a _ h1 => ?_
  subst h1
  have h := h.set (PN_rfl "amplm" a)
  refine PyRel.bind (h.getItem _) fun p p' hpp => ?_
  refine PyRel.bind (cutEntry_phase idx (hp _ _ hpp)) fun p p' hpp => ?_
  have h := h.set (k := "phaselm") (x := p) (y := p') (by unfold PN; rw [if_pos (.inl rfl)]; exact hpp)
  refine PyRel.bind (h.getItem _) fun w w' hww => ?_
  rw [ho _ _ hww]
  refine PyRel.bind (PyRel.same _) fun w _ h1 => ?_
  subst h1
  have h := h.set (PN_rfl "omegalm" w)
  refine PyRel.bind (getArr_eq h ht) fun t t' htt => ?_
  subst htt
  exact .ok (h.set (PN_rfl "t" _))

/-! ### Lengths of the phases -/

theorem phaseModes_long {lib : WaveLib K C} {n : ℕ} {v : DataV K C} (hv : Long lib n v) {d : Dict LM (List K)}
    (h : realModes lib.phase "phaselm" "" v = .ok d) : ∀ p ∈ d, n ≤ p.2.length := by
  unfold realModes at h
  simp only [String.append_empty] at h
  split at h
  · obtain ⟨e, he, h⟩ := bind_ok h
    cases h
    intro p hp
    rcases mem_update hp with hp | hp
    · cases hp
    · exact hv.real _ (getR_ok he) p hp
  · split at h
    · obtain ⟨e, he, h⟩ := bind_ok h
      cases h
      intro p hp
      rcases foldl_set_mem lib.phase e [] p hp with hp | ⟨q, hq, rfl⟩
      · cases hp
      · exact hv.complex _ (getC_ok he) q hq
    · simp at h

theorem newData_long {lib : WaveLib K C} {n : ℕ} {v nd : DataV K C} (hv : Long lib n v) (h : newData lib v = .ok nd) :
    Long lib n nd := by
  have sp := newData_spec h
  obtain ⟨p, q, w, hp, _, hnp, _⟩ := sp.omega
  constructor
  · intro d hd
    rw [hnp] at hd
    cases hd
    exact phaseModes_long hv hp
  · intro d hd
    rw [sp.rest "hlm" (by decide)] at hd
    cases hd

theorem initial_long {lib : WaveLib K C} {v : DataV K C} (h : OneSampleEach lib v) :
    ∃ n, (∀ l, v.get? "t" = some (.arr l) → l.length = n) ∧ Long lib n v := by
  by_cases ht : ∃ t, v.get? "t" = some (.arr t)
  · obtain ⟨t, ht⟩ := ht
    refine ⟨t.length, fun l hl => by rw [ht] at hl; cases hl; rfl, ?_, ?_⟩
    · rintro d hd ⟨m, l⟩ hp
      have hn := (h.proper _ _ hd).1 _ rfl
      refine (h.real "phaselm" (by simp) t m l (array_of ht) ?_).ge
      rw [realMode_of hd]
      exact get?_of_mem hn hp
    · rintro d hd ⟨m, l⟩ hp
      have hn := (h.proper _ _ hd).2 _ rfl
      exact (h.complex t m l (array_of ht) (by rw [complexMode_of hd]; exact get?_of_mem hn hp)).2.ge
  · exact ⟨0, fun l hl => absurd ⟨l, hl⟩ ht, ⟨fun _ _ _ _ => Nat.zero_le _, fun _ _ _ _ => Nat.zero_le _⟩⟩

theorem PyRel_upgrade {α β : Type} {R S : α → β → Prop} {x : Py α} {y : Py β} (h : PyRel R x y)
    (hs : ∀ a b, x = .ok a → R a b → S a b) : PyRel S x y := by
  cases h with
  | ok h => exact .ok (hs _ _ rfl h)
  | error e => exact .error e

/-- The complex modes after the transformation are those of the given modes in the coprecessing frame. -/
theorem toCoprecessing_given {lib : WaveLib K C} {v x : DataV K C} (hp : ProperDicts v) (hs : checkShape v.has = .ok ())
    (h : toCoprecessing lib v = .ok x) (f1 : v.has "hlm" = true → v.has "amplm_zeroecc" = false)
    (f2 : v.has "hlm" = false → v.has "hlm_zeroecc" = false ∧ ∀ d, v.get? "amplm_zeroecc" = some (.modesR d) → d ≠ [])
    {tag : String} (htag : tag ∈ ["", "_zeroecc"]) {d : Dict LM (List C)} (hd : x.get? ("hlm" ++ tag) = some (.modesC d)) :
    ∃ H t, Given lib v tag (fun k => H.get? k) ∧ array v ("t" ++ tag) = some t ∧ Coprecessing lib t H d ∧ d.keys.Nodup := by
  unfold toCoprecessing at h
  obtain ⟨w, hw, h⟩ := bind_ok h
  obtain ⟨H, t, R, a1, a2, a3, a4, a5, a6, a7, a8, a9⟩ := firstTransform hp hs hw
  have first : ∀ d, w.get? "hlm" = some (.modesC d) →
      ∃ H t, Given lib v "" (fun k => H.get? k) ∧ array v "t" = some t ∧ Coprecessing lib t H d ∧ d.keys.Nodup := by
    intro d hd
    rw [a4] at hd
    cases hd
    exact ⟨H, t, a1, array_of a2, a3, a9⟩
  -- the quasicircular modes after the first transformation
  have zero : (w.has "amplm_zeroecc" = true → w.has "hlm_zeroecc" = true) ∧ w.get? "t_zeroecc" = v.get? "t_zeroecc" ∧
      ∀ H, w.get? "hlm_zeroecc" = some (.modesC H) → Given lib v "_zeroecc" (fun k => H.get? k) := by
    obtain ⟨r, ⟨g1, g2, g3⟩ | ⟨g1, b, hb, g2, g3⟩⟩ := transform_ok hw
    · refine ⟨fun hc => ?_, by rw [g3]; simp, fun H hH => ?_⟩
      · unfold Dict.has at hc
        rw [g3] at hc
        have := f1 g1
        unfold Dict.has at this
        simp [this] at hc
      · rw [g3] at hH
        simp at hH
        exact Or.inl ⟨H, hH, fun k => rfl⟩
    · obtain ⟨e1, e2⟩ := f2 g1
      have e1 : v.get? "hlm_zeroecc" = none := (has_false_iff _ _).mp e1
      obtain ⟨_, _, c, z, q, _, _, hz, hq, _, _, hcase⟩ := builtModes_ok hp hb
      have ze : v.get? "amplm_zeroecc" = none → z = [] := by
        intro hn
        rcases realModes_spec lib.abs hp hz with ⟨q1, q2, _⟩ | ⟨_, cc, q2, _⟩ | ⟨_, _, _, q4⟩
        · have q2 : v.get? "amplm_zeroecc" = some (.modesR z) := q2
          rw [hn] at q2; cases q2
        · have q2 : v.get? "hlm_zeroecc" = some (.modesC cc) := q2
          rw [e1] at q2; cases q2
        · exact q4
      have zs : z ≠ [] → v.get? "amplm_zeroecc" = some (.modesR z) := by
        intro hn
        rcases realModes_spec lib.abs hp hz with ⟨q1, q2, _⟩ | ⟨_, cc, q2, _⟩ | ⟨_, _, _, q4⟩
        · exact q2
        · have q2 : v.get? "hlm_zeroecc" = some (.modesC cc) := q2
          rw [e1] at q2; cases q2
        · exact absurd q4 hn
      rcases hcase with ⟨hz0, hg⟩ | ⟨hz0, c0, hc0, hpol, hg⟩
      · have hz0 : z = [] := by simpa using hz0
        have hna : v.get? "amplm_zeroecc" = none := by
          cases hv : v.get? "amplm_zeroecc" with
          | none => rfl
          | some e =>
            exfalso
            rcases realModes_spec lib.abs hp hz with ⟨q1, q2, _⟩ | ⟨_, cc, q2, _⟩ | ⟨q1, _, _, _⟩
            · exact e2 z q2 hz0
            · have q2 : v.get? "hlm_zeroecc" = some (.modesC cc) := q2
              rw [e1] at q2; cases q2
            · have q1 : v.has "amplm_zeroecc" = false := q1
              rw [has_false_iff, hv] at q1
              cases q1
        refine ⟨fun hc => ?_, by rw [g3, hg]; simp, fun H hH => ?_⟩
        · unfold Dict.has at hc
          rw [g3, hg] at hc
          simp [hna] at hc
        · rw [g3, hg] at hH
          simp [e1] at hH
      · have hz0 : z ≠ [] := by simpa using hz0
        refine ⟨fun _ => ?_, by rw [g3, hg]; simp, fun H hH => ?_⟩
        · unfold Dict.has
          rw [g3, hg]
          simp
        · rw [g3, hg] at hH
          simp at hH
          subst hH
          have hpg : v.get? "phaselm_zeroecc" = some (.modesR q) := by
            rcases realModes_spec lib.phase hp hq with ⟨_, q2, _⟩ | ⟨_, cc, q2, _⟩ | ⟨_, _, _, q4⟩
            · exact q2
            · have q2 : v.get? "hlm_zeroecc" = some (.modesC cc) := q2
              rw [e1] at q2; cases q2
            · exfalso
              subst q4
              cases z with
              | nil => exact hz0 rfl
              | cons p z =>
                rcases hpol p.1 with ⟨e, _⟩ | ⟨_, _, _, _, e, _⟩
                · rw [Dict.get?_cons, if_pos rfl] at e; cases e
                · cases e
          exact Or.inr ⟨e1, z, q, c0, zs hz0, hpg, hpol, fun k => rfl⟩
  obtain ⟨z1, z2, z3⟩ := zero
  split at h
  · rename_i hc
    have hh : w.has "hlm_zeroecc" = true := by
      rw [Bool.or_eq_true] at hc
      exact hc.elim id z1
    obtain ⟨r, ⟨g1, g2, g3⟩ | ⟨g1, _⟩⟩ := transform_ok h
    · simp only [List.mem_cons, List.not_mem_nil, or_false] at htag
      rcases htag with rfl | rfl
      · rw [g3] at hd
        exact first d (by simpa using hd)
      · rw [g3] at hd
        have hd : r = d := by simpa using hd
        subst hd
        obtain ⟨H', t', b1, b2, b3⟩ := rotatedModes_ok g2
        have b1 : w.get? "hlm_zeroecc" = some (.modesC H') := b1
        have b2 : w.get? "t_zeroecc" = some (.arr t') := b2
        rw [z2] at b2
        exact ⟨H', t', z3 H' b1, array_of b2, b3, rotatedModes_nodup g2⟩
    · have g1 : w.has "hlm_zeroecc" = false := g1
      rw [hh] at g1
      cases g1
  · rename_i hc
    cases h
    simp only [List.mem_cons, List.not_mem_nil, or_false] at htag
    rcases htag with rfl | rfl
    · exact first d hd
    · have hd : x.get? "hlm_zeroecc" = some (.modesC d) := hd
      rw [Bool.or_eq_true, not_or] at hc
      exact absurd ((Dict.has_iff_get? _ _).mpr ⟨_, hd⟩) hc.1

theorem initial_PV {lib : WaveLib K C} {Clear : List C → Prop} {u u0 : Turn K C} (hl : WaveTurnFree lib Clear u)
    (hl0 : WaveTurnFree lib Clear u0) {v : DataV K C}
    (hp : ProperDicts v)
    (hd : ∀ key ∈ ["hlm", "hlm_zeroecc"], ∀ k l, complexMode v key k = some l → Clear l) :
    DRel (PV lib) v (turnDict u u0 v) := by
  refine (turnDict_rel u u0 v).mono fun k a b hk hab => P2_PV (Clear := Clear) (u := u) (u0 := u0) ?_ ?_
  swap
  · rintro hkk d rfl p hm
    refine hd k (by simpa using hkk) p.1 p.2 ?_
    rw [complexMode_of hk]
    exact get?_of_mem ((hp _ _ hk).2 _ rfl) hm
  have comp : ∀ (w : Turn K C), WaveTurnFree lib Clear w → k ∈ ["hlm", "hlm_zeroecc"] → CompC lib Clear a (turnComplex w a) := by
    intro w hw hkm
    cases a with
    | modesC d =>
      refine .inl ⟨d, turnModes w d, rfl, rfl, FRel.mapE _ d fun m l hm _ => ?_⟩
      refine hw.same m l (hd k hkm m l ?_)
      rw [complexMode_of hk]
      exact get?_of_mem ((hp _ _ hk).2 _ rfl) hm
    | modesR d => exact .inr rfl
    | arr l => exact .inr rfl
    | other => exact .inr rfl
  unfold P2
  by_cases h1 : k = "hlm"
  · rw [if_pos (.inl h1)]
    have := P0_hlm (u := u) (u0 := u0) (suffix := "") (Or.inl rfl) a b (by rw [h1] at hab; exact hab)
    rw [this]
    exact comp _ hl (by simp [h1])
  · by_cases h2 : k = "hlm_zeroecc"
    · rw [if_pos (.inr h2)]
      have := P0_hlm (u := u) (u0 := u0) (suffix := "_zeroecc") (Or.inr rfl) a b (by rw [h2] at hab; exact hab)
      rw [this]
      exact comp _ hl0 (by simp [h2])
    · rw [if_neg (by tauto)]
      exact hab

theorem processData_turn {lib : WaveLib K C} {Clear : List C → Prop} {u u0 : Turn K C} (hl : WaveTurnFree lib Clear u)
    (hl0 : WaveTurnFree lib Clear u0) {a : Call K C} (ha : TurnFreeCall lib Clear a) :
    PyRel (fun r r' => DRel PN r.1 r'.1 ∧ r'.2 = r.2 ∧ ∀ t, r.1.get? "t" = some (.arr t) → Long lib t.length r.1)
      (processData lib a.precessing a.frame a.dataDict a.numOrbits)
      (processData lib a.precessing a.frame (turnDict u u0 a.dataDict) a.numOrbits) := by
  obtain ⟨n, hn, hlong⟩ := initial_long ha.samples
  have h0 := turnDict_rel u u0 a.dataDict
  unfold processData
  have hsh : checkShape (turnDict u u0 a.dataDict).has = checkShape a.dataDict.has := by
    have : (turnDict u u0 a.dataDict).has = a.dataDict.has := funext fun k => h0.has k
    rw [this]
  rw [hsh]
  refine PyRel.bind_of (PyRel.refl (R := Eq) (fun _ => rfl) _) fun _ _ hsok _ _ => ?_
  refine PyRel.bind_of (R := fun x y => DRel (PV lib) x y ∧ Long lib n x) ?_ fun x y hx _ hxy => ?_
  · refine PyRel.ite Iff.rfl (fun hm _ => ?_) fun hm _ => ?_
    · refine PyRel_upgrade (toCoprecessing_turn hl hl0 h0 ha.rotated hn hlong (ha.form hm).1 (ha.form hm).2) fun x y hx hxy => ?_
      refine ⟨hxy.1.mono fun k e e' hk he => P2_PV he fun hkk d hd p hpd => ?_, hxy.2⟩
      subst hd
      have : ∃ tag ∈ ["", "_zeroecc"], k = "hlm" ++ tag := by
        rcases hkk with rfl | rfl
        · exact ⟨"", by simp, by simp⟩
        · exact ⟨"_zeroecc", by simp, by decide⟩
      obtain ⟨tag, htag, rfl⟩ := this
      obtain ⟨H, t, c1, c2, c3, c4⟩ := toCoprecessing_given ha.samples.proper hsok hx (ha.form hm).1 (ha.form hm).2 htag hk
      exact ha.transformed hm tag htag t H d c1 c2 c3 p.1 p.2 (get?_of_mem c4 hpd)
    · exact .ok ⟨initial_PV hl hl0 ha.samples.proper (ha.clear (by simpa using hm)), hlong⟩
  obtain ⟨hxy, hlx⟩ := hxy
  have hxt : x.get? "t" = a.dataDict.get? "t" := by
    split at hx
    · exact toCoprecessing_t hx "t" (by simp)
    · cases hx; rfl
  refine PyRel.bind_of (newData_same hxy) fun nd nd' hnd _ hF => ?_
  have hD := hF.toD
  have hln := newData_long hlx hnd
  have sp := newData_spec hnd
  have hnt : ∀ t, nd.get? "t" = some (.arr t) → t.length = n := by
    intro t ht
    rw [sp.t.2, hxt] at ht
    exact hn t ht
  refine PyRel.bind (analyse_same lib a.precessing.truth hD a.numOrbits) fun an an' han => ?_
  subst han
  cases an'.cut with
  | none => exact .ok ⟨hD, rfl, fun t ht => by rw [hnt t ht]; exact hln⟩
  | some idx =>
    dsimp only
    refine PyRel.bind_of (cutData_same idx hD) fun x y hcut _ hxy => ?_
    refine .ok ⟨hxy, rfl, ?_⟩
    obtain ⟨am, _, _, _, hna, _⟩ := sp.amp
    obtain ⟨p, q, w, hp, _, hnp, _⟩ := sp.omega
    obtain ⟨_, _, t, _, _, ht, get⟩ := cutData_ok hcut hna hnp
    intro t' ht'
    dsimp only at ht'
    rw [get, if_pos rfl] at ht'
    cases ht'
    rw [List.length_take, hnt t ht]
    constructor
    · intro d hd
      dsimp only at hd
      rw [get] at hd
      simp at hd
      subst hd
      intro r hr
      obtain ⟨s, hs, rfl⟩ := List.mem_map.mp hr
      rw [List.length_take]
      exact min_le_min le_rfl (hln.real _ hnp s hs)
    · intro d hd
      dsimp only at hd
      rw [get] at hd
      simp [sp.rest "hlm" (by decide)] at hd

theorem gwQuantities_long {lib : WaveLib K C} {n : ℕ} {nd : DataV K C} (hs : Long lib n nd) {pr : Bool}
    {amp phase omega : List K} (h : gwQuantities pr nd "" = .ok (amp, phase, omega)) : n ≤ phase.length := by
  unfold gwQuantities at h
  simp only [String.append_empty] at h
  obtain ⟨a, ha, h⟩ := bind_ok h
  obtain ⟨p, hp, h⟩ := bind_ok h
  have fp : ∀ m l, p.getItem m = .ok l → n ≤ l.length := fun m l hl =>
    hs.real _ (getR_ok hp) _ (mem_of_get? (getItem_ok hl))
  split at h
  · obtain ⟨x, hx, h⟩ := bind_ok h
    obtain ⟨y, hy, h⟩ := bind_ok h
    obtain ⟨w, hw, h⟩ := bind_ok h
    obtain ⟨z, hz, h⟩ := bind_ok h
    cases h
    exact fp _ _ hy
  · split at h
    · cases h
    · split at h
      · cases h
      · obtain ⟨x, hx, h⟩ := bind_ok h
        obtain ⟨x', hx', h⟩ := bind_ok h
        obtain ⟨A, hA, h⟩ := bind_ok h
        obtain ⟨y, hy, h⟩ := bind_ok h
        obtain ⟨y', hy', h⟩ := bind_ok h
        obtain ⟨P, hP, h⟩ := bind_ok h
        obtain ⟨w, hw, h⟩ := bind_ok h
        obtain ⟨z, hz, h⟩ := bind_ok h
        obtain ⟨z', hz', h⟩ := bind_ok h
        obtain ⟨W, hW, h⟩ := bind_ok h
        cases h
        exact (fp _ _ hy).trans (npZip_len hP).ge

end

end Turned

end GwEcc
