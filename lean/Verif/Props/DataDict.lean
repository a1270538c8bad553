import Verif.Lemmas.Frame
import Verif.Props.Utils

/-!
# C03, C19, C20, C48, C65: preparation of the waveform data

Cases that meet the premises of the theorems are in `Props/DataDemo`.
-/

set_option linter.unusedSectionVars false

namespace GwEcc

open Spec

/-! ## C03 -/

section C03
variable {K C : Type} [Field K] [LinearOrder K] [FloorRing K]

theorem checkShape_iff (has : String → Bool) :
    checkShape has = .ok () ↔
      ((has "hlm" = true ∨ (has "amplm" = true ∧ has "phaselm" = true)) ∧
      ¬ (has "hlm" = true ∧ (has "amplm" = true ∨ has "phaselm" = true)) ∧
      ¬ (has "hlm_zeroecc" = true ∧ (has "amplm_zeroecc" = true ∨ has "phaselm_zeroecc" = true))) := by
  unfold checkShape
  generalize has "hlm" = a
  generalize has "amplm" = b
  generalize has "phaselm" = c
  generalize has "hlm_zeroecc" = d
  generalize has "amplm_zeroecc" = e
  generalize has "phaselm_zeroecc" = f
  cases a <;> cases b <;> cases c <;> cases d <;> cases e <;> cases f <;> simp

/-- Whatever the options, a dictionary of the wrong shape is refused. -/
theorem C03_rejected (lib : WaveLib K C) (pr : Flag) (frame : String) (v : DataV K C) (n : Option K) (hp : ProperDicts v)
    (h : ¬ GoodShape (fun key => ∃ e, v.get? key = some e)) : ∃ err, processData lib pr frame v n = .error err := by
  cases hr : processData lib pr frame v n with
  | error e => exact ⟨e, rfl⟩
  | ok x =>
    exfalso
    obtain ⟨nd, r⟩ := x
    obtain ⟨v', full, h1, h2, h3, _⟩ := processData_ok hr
    have ht : v'.get? "t" = v.get? "t" := by
      split at h2
      · unfold toCoprecessing at h2
        obtain ⟨w, hw, h2⟩ := bind_ok h2
        have e1 := (transform_t hp (Or.inl rfl) hw).1
        split at h2
        · rw [(transform_t (transform_proper hp hw) (Or.inr rfl) h2).1, e1]
        · cases h2; exact e1
      · cases h2; rfl
    have hnew := (newData_spec h3).t.1
    rw [Dict.has_iff_get?, ht] at hnew
    rw [checkShape_iff] at h1
    simp only [Dict.has_iff_get?] at h1
    exact h ⟨hnew, h1.1, h1.2.1, h1.2.2⟩

/-- A dictionary of the documented shape passes the checks and its amplitudes, phases and frequencies are found: the run
goes on with them. -/
theorem C03_accepted (lib : WaveLib K C) (pr : Flag) (frame : String) (v : DataV K C) (n : Option K) (hp : ProperDicts v)
    (hw : WellTyped lib v) (hf : pr ≠ .isTrue ∨ frame ≠ "inertial")
    (h : GoodShape (fun key => ∃ e, v.get? key = some e)) :
    ∃ nd, newData lib v = .ok nd ∧ processData lib pr frame v n = (do
      let r ← analyse lib pr.truth nd n
      match r.cut with
      | none => pure (nd, r)
      | some idx => do
        let nd ← cutData idx nd
        pure (nd, r)) := by
  obtain ⟨⟨te, ht⟩, h1, h2, h3⟩ := h
  have hc : checkShape v.has = .ok () := by
    rw [checkShape_iff]; simp only [Dict.has_iff_get?]; exact ⟨h1, h2, h3⟩
  have hm : mustTransform pr frame = false := by
    unfold mustTransform; rcases hf with hf | hf <;> simp [hf]
  have hreal : ∀ (conv : List C → List K) (name suffix : String), (name = "amplm" ∨ name = "phaselm") →
      (suffix = "" ∨ suffix = "_zeroecc") → ∃ d, realModes conv name suffix v = .ok d := by
    intro conv name suffix hn hs
    unfold realModes
    split
    · rename_i hh
      obtain ⟨e, he⟩ := (Dict.has_iff_get? _ _).mp hh
      obtain ⟨d, rfl, _⟩ := hw.real (name ++ suffix) (by rcases hn with rfl | rfl <;> rcases hs with rfl | rfl <;> decide) e he
      rw [getR_of he]; exact ⟨_, rfl⟩
    · rename_i hh
      split
      · rename_i hh2
        obtain ⟨e, he⟩ := (Dict.has_iff_get? _ _).mp hh2
        obtain ⟨d, rfl, _⟩ := hw.complex ("hlm" ++ suffix) (by rcases hs with rfl | rfl <;> decide) e he
        rw [getC_of he]; exact ⟨_, rfl⟩
      · rename_i hh2
        split
        · rename_i hs'
          exfalso
          subst hs'
          rw [Dict.has_iff_get?] at hh hh2
          rcases h1 with h1 | ⟨ha, hb⟩
          · exact hh2 h1
          · rcases hn with rfl | rfl
            · exact hh ha
            · exact hh hb
        · exact ⟨_, rfl⟩
  obtain ⟨a, ha⟩ := hreal lib.abs "amplm" "" (Or.inl rfl) (Or.inl rfl)
  obtain ⟨z, hz⟩ := hreal lib.abs "amplm" "_zeroecc" (Or.inl rfl) (Or.inr rfl)
  obtain ⟨p, hph⟩ := hreal lib.phase "phaselm" "" (Or.inr rfl) (Or.inl rfl)
  obtain ⟨q, hq⟩ := hreal lib.phase "phaselm" "_zeroecc" (Or.inr rfl) (Or.inr rfl)
  have hlong : ∀ {suffix d}, (suffix = "" ∨ suffix = "_zeroecc") → realModes lib.phase "phaselm" suffix v = .ok d →
      ∀ x ∈ d, 5 ≤ x.2.length := by
    intro suffix d hs hd
    rcases realModes_spec lib.phase hp hd with ⟨_, hg, _⟩ | ⟨_, c, hg, _, rfl⟩ | ⟨_, _, _, rfl⟩
    · obtain ⟨d', hd', hl⟩ := hw.real ("phaselm" ++ suffix) (by rcases hs with rfl | rfl <;> decide) _ hg
      cases hd'; exact hl
    · obtain ⟨d', hd', hl⟩ := hw.complex ("hlm" ++ suffix) (by rcases hs with rfl | rfl <;> decide) _ hg
      cases hd'
      intro x hx
      obtain ⟨y, hy, rfl⟩ := List.mem_map.mp hx
      exact hl y hy
    · simp
  have homega : ∀ {suffix d}, (suffix = "" ∨ suffix = "_zeroecc") → v.has ("t" ++ suffix) = true →
      realModes lib.phase "phaselm" suffix v = .ok d →
      ∃ t w, getArr v ("t" ++ suffix) = .ok t ∧ omegaModes t d = .ok w := by
    intro suffix d hs hh hd
    obtain ⟨e, he⟩ := (Dict.has_iff_get? _ _).mp hh
    obtain ⟨l, rfl, hl⟩ := hw.t ("t" ++ suffix) (by rcases hs with rfl | rfl <;> decide) e he
    obtain ⟨w, hw'⟩ := omegaModes_ok hl d d (hlong hs hd)
    exact ⟨l, w, getArr_of he, hw'⟩
  have hap : ∃ d, ampPhaseOmega lib v = .ok d := by
    unfold ampPhaseOmega realModesDict
    rw [ha, hz, hph, hq]
    simp only [ok_bind, pure_eq_ok]
    have hd : Dict.update (Dict.update [] (withZeroecc "amplm" a z)) (withZeroecc "phaselm" p q)
        = (apDict a z p q : DataV K C) := rfl
    simp only [hd]
    have hpg : getR (apDict a z p q : DataV K C) "phaselm" = .ok p := by
      apply getR_of; rw [apDict_get]; simp
    have hw1 : ∃ x, (if v.has "omegalm" then v.getItem "omegalm" else do
        let t ← getArr v "t"
        let p ← getR (apDict a z p q : DataV K C) "phaselm"
        let w ← omegaModes t p
        Except.ok (.modesR w) : Py (Entry K C)) = .ok x := by
      split
      · rename_i hh
        obtain ⟨e, he⟩ := (Dict.has_iff_get? _ _).mp hh
        exact ⟨e, getItem_of he⟩
      · obtain ⟨t, w, g1, g2⟩ := homega (Or.inl rfl) ((Dict.has_iff_get? _ _).mpr ⟨te, ht⟩) hph
        have g1 : getArr v "t" = .ok t := g1
        rw [g1, hpg]
        simp only [ok_bind]
        rw [g2]
        exact ⟨_, rfl⟩
    obtain ⟨x, hx⟩ := hw1
    rw [hx]
    simp only [ok_bind]
    split
    · rename_i hh
      obtain ⟨e, he⟩ := (Dict.has_iff_get? _ _).mp hh
      rw [getItem_of he]; exact ⟨_, rfl⟩
    · split
      · rename_i hh
        simp only [Bool.and_eq_true] at hh
        obtain ⟨t, w, g1, g2⟩ := homega (Or.inr rfl) hh.2 hq
        have g1 : getArr v "t_zeroecc" = .ok t := g1
        have hqg : getR ((apDict a z p q : DataV K C).set "omegalm" x) "phaselm_zeroecc" = .ok q := by
          obtain ⟨e, he⟩ := (Dict.has_iff_get? _ _).mp hh.1
          apply getR_of
          rw [Dict.get?_set, apDict_get] at he ⊢
          simp only [if_neg (by decide : ¬ "phaselm_zeroecc" = "omegalm"), if_neg (by decide : ¬ "phaselm_zeroecc" = "amplm"),
            if_neg (by decide : ¬ "phaselm_zeroecc" = "amplm_zeroecc"), if_neg (by decide : ¬ "phaselm_zeroecc" = "phaselm"),
            if_true] at he ⊢
          split at he
          · cases he
          · rename_i h0; rw [if_neg h0]
        rw [g1, hqg]
        simp only [ok_bind]
        rw [g2]
        exact ⟨_, rfl⟩
      · exact ⟨_, rfl⟩
  obtain ⟨d, hd⟩ := hap
  have hnd : ∃ nd, newData lib v = .ok nd := by
    unfold newData
    rw [if_pos ((Dict.has_iff_get? _ _).mpr ⟨te, ht⟩), getItem_of ht, hd]
    simp only [ok_bind]
    split
    · rename_i hh
      obtain ⟨e, he⟩ := (Dict.has_iff_get? _ _).mp hh
      rw [getItem_of he]; exact ⟨_, rfl⟩
    · exact ⟨_, rfl⟩
  obtain ⟨nd, hnd⟩ := hnd
  refine ⟨nd, hnd, ?_⟩
  unfold processData
  rw [hc, hm]
  simp only [ok_bind, Bool.false_eq_true, if_false, pure_eq_ok]
  rw [hnd]
  rfl

/-- Entries under keys that are not documented make no difference. -/
theorem C03_unrecognised (lib : WaveLib K C) (pr : Flag) (frame : String) (n : Option K) (v v' : DataV K C)
    (h : ∀ key ∈ recognised, v.get? key = v'.get? key) :
    processData lib pr frame v n = processData lib pr frame v' n := processData_congr lib pr frame n h

/-- What `newData` puts under each key, mode by mode. -/
theorem newData_contents {lib : WaveLib K C} {v nd : DataV K C} (hp : ProperDicts v) (h3 : newData lib v = .ok nd)
    (tag : String) (htag : tag = "" ∨ tag = "_zeroecc") (k : LM) :
    nd.get? ("t" ++ tag) = v.get? ("t" ++ tag) ∧
    realMode nd ("amplm" ++ tag) k =
      (if v.has ("amplm" ++ tag) then realMode v ("amplm" ++ tag) k else (complexMode v ("hlm" ++ tag) k).map lib.abs) ∧
    realMode nd ("phaselm" ++ tag) k =
      (if v.has ("phaselm" ++ tag) then realMode v ("phaselm" ++ tag) k
        else (complexMode v ("hlm" ++ tag) k).map lib.phase) ∧
    (v.has ("omegalm" ++ tag) = true → realMode nd ("omegalm" ++ tag) k = realMode v ("omegalm" ++ tag) k) ∧
    (v.has ("omegalm" ++ tag) = false → ∀ w, realMode nd ("omegalm" ++ tag) k = some w →
      ∃ φ t t0 t1, realMode nd ("phaselm" ++ tag) k = some φ ∧ array v ("t" ++ tag) = some t ∧ t[0]? = some t0 ∧
        t[1]? = some t1 ∧ timeDeriv4 φ (t1 - t0) = .ok w) := by
  have S := newData_spec h3
  have modes : ∀ {conv : List C → List K} {name d}, realModes conv name tag v = .ok d →
      ∀ e : Option (Entry K C), (e = some (.modesR d) ∨ (d = [] ∧ e = none)) → nd.get? (name ++ tag) = e →
      realMode nd (name ++ tag) k =
        (if v.has (name ++ tag) then realMode v (name ++ tag) k else (complexMode v ("hlm" ++ tag) k).map conv) := by
    intro conv name d hd e he hg
    have hl : realMode nd (name ++ tag) k = d.get? k := by
      rcases he with rfl | ⟨rfl, rfl⟩
      · exact realMode_of hg k
      · unfold realMode; rw [hg]; rfl
    rw [hl]
    rcases realModes_spec conv hp hd with ⟨g1, g2, _⟩ | ⟨g1, c, g2, _, rfl⟩ | ⟨g1, g2, _, rfl⟩
    · rw [if_pos g1, realMode_of g2]
    · rw [if_neg (by simp [g1]), complexMode_of g2, get?_map]
    · rw [if_neg (by simp [g1])]
      unfold complexMode
      rw [(has_false_iff _ _).mp g2]; rfl
  have emp : ∀ {d : Dict LM (List K)}, (if d.isEmpty then none else some (Entry.modesR d : Entry K C)) = some (.modesR d) ∨
      (d = [] ∧ (if d.isEmpty then none else some (Entry.modesR d : Entry K C)) = none) := by
    intro d
    cases d with
    | nil => right; exact ⟨rfl, rfl⟩
    | cons x d => left; rfl
  have nodup : ∀ {d}, realModes lib.phase "phaselm" tag v = .ok d → d.keys.Nodup := by
    intro d hh
    rcases realModes_spec lib.phase hp hh with ⟨_, _, hn⟩ | ⟨_, c, _, hn, rfl⟩ | ⟨_, _, _, rfl⟩
    · exact hn
    · rw [keys_map]; exact hn
    · simp [Dict.keys]
  obtain ⟨a, z, ha, hz, ga, gz⟩ := S.amp
  obtain ⟨p, q, w0, hph, hq, gp, gq, gw, hw, hw0⟩ := S.omega
  rcases htag with rfl | rfl
  · refine ⟨S.t.2, modes ha _ (Or.inl rfl) ga, modes hph _ (Or.inl rfl) gp, ?_, ?_⟩
    · intro hh
      obtain ⟨e, he⟩ := (Dict.has_iff_get? _ _).mp hh
      have he : v.get? "omegalm" = some e := he
      rcases hw with hw | ⟨hw, _⟩
      · unfold realMode
        rw [show "omegalm" ++ "" = "omegalm" from rfl, gw, hw]
      · rw [he] at hw; cases hw
    · intro hh w hwk
      have hh : v.get? "omegalm" = none := (has_false_iff _ _).mp hh
      rcases hw with hw | ⟨_, t, w', ht, hw', rfl⟩
      · rw [hh] at hw; cases hw
      · have hwk : realMode nd "omegalm" k = some w := hwk
        rw [realMode_of gw] at hwk
        rcases omegaModes_spec (nodup hph) hw' k with ⟨_, e⟩ | ⟨φ, r', t0, t1, e1, e2, e3, e4, e5⟩
        · rw [e] at hwk; cases hwk
        · rw [e2] at hwk; cases hwk
          refine ⟨φ, t, t0, t1, (realMode_of gp k).trans e1, ?_, e3, e4, e5⟩
          unfold Spec.array
          rw [show "t" ++ "" = "t" from rfl, getArr_ok ht]; rfl
  · refine ⟨S.t0, modes hz _ emp gz, modes hq _ emp gq, ?_, ?_⟩
    · intro hh
      have hh : v.has "omegalm_zeroecc" = true := hh
      rcases hw0 with ⟨_, e⟩ | ⟨e, _⟩ | ⟨e, _⟩
      · unfold realMode
        rw [show "omegalm" ++ "_zeroecc" = "omegalm_zeroecc" from rfl, e]
      · rw [hh] at e; cases e
      · rw [hh] at e; cases e
    · intro hh w hwk
      have hh : v.has "omegalm_zeroecc" = false := hh
      rcases hw0 with ⟨e, _⟩ | ⟨_, h0, _, t, w', ht, hw', e⟩ | ⟨_, _, e⟩
      · rw [hh] at e; cases e
      · have hwk : realMode nd "omegalm_zeroecc" k = some w := hwk
        rw [realMode_of e] at hwk
        rcases omegaModes_spec (nodup hq) hw' k with ⟨_, e⟩ | ⟨φ, r', t0, t1, e1, e2, e3, e4, e5⟩
        · rw [e] at hwk; cases hwk
        · rw [e2] at hwk; cases hwk
          refine ⟨φ, t, t0, t1, ?_, ?_, e3, e4, e5⟩
          · rw [h0] at gq
            exact (realMode_of gq k).trans e1
          · unfold Spec.array
            rw [show "t" ++ "_zeroecc" = "t_zeroecc" from rfl, getArr_ok ht]; rfl
      · unfold realMode at hwk
        rw [show "omegalm" ++ "_zeroecc" = "omegalm_zeroecc" from rfl, e] at hwk
        cases hwk

/-- The amplitudes, phases and frequencies used are the ones given, or the ones of the complex modes given; frequencies
that are not given are the derivatives of the phases. -/
theorem C03_contents (lib : WaveLib K C) (pr : Flag) (frame : String) (v nd : DataV K C) (r : Analysis K) (hp : ProperDicts v)
    (hf : pr ≠ .isTrue ∨ frame ≠ "inertial") (h : processData lib pr frame v none = .ok (nd, r)) (tag : String)
    (htag : tag = "" ∨ tag = "_zeroecc") (k : LM) :
    nd.get? ("t" ++ tag) = v.get? ("t" ++ tag) ∧
    realMode nd ("amplm" ++ tag) k =
      (if v.has ("amplm" ++ tag) then realMode v ("amplm" ++ tag) k else (complexMode v ("hlm" ++ tag) k).map lib.abs) ∧
    realMode nd ("phaselm" ++ tag) k =
      (if v.has ("phaselm" ++ tag) then realMode v ("phaselm" ++ tag) k
        else (complexMode v ("hlm" ++ tag) k).map lib.phase) ∧
    (v.has ("omegalm" ++ tag) = true → realMode nd ("omegalm" ++ tag) k = realMode v ("omegalm" ++ tag) k) ∧
    (v.has ("omegalm" ++ tag) = false → ∀ w, realMode nd ("omegalm" ++ tag) k = some w →
      ∃ φ t t0 t1, realMode nd ("phaselm" ++ tag) k = some φ ∧ array v ("t" ++ tag) = some t ∧ t[0]? = some t0 ∧
        t[1]? = some t1 ∧ timeDeriv4 φ (t1 - t0) = .ok w) := by
  obtain ⟨v', full, h1, h2, h3, h4, h5⟩ := processData_ok h
  have hm : mustTransform pr frame = false := by
    unfold mustTransform; rcases hf with hf | hf <;> simp [hf]
  rw [hm] at h2
  cases h2
  obtain ⟨_, _, _, _, _, _, _, _, _, _, _, _, _, _, _, _, _, _, _, _, _, _, _, _, hcut⟩ := (analyse_spec h4).parts
  have hnd : nd = full := by
    rcases hcut with ⟨_, hc⟩ | ⟨m, idx, hm', _⟩
    · rcases h5 with ⟨_, h5⟩ | ⟨idx, h5, _⟩
      · exact h5
      · rw [hc] at h5; cases h5
    · cases hm'
  subst hnd
  exact newData_contents hp h3 tag htag k

end C03


/-! ## C19 -/

section C19
variable {K C : Type} [Field K] [LinearOrder K] [IsStrictOrderedRing K]

theorem timeDeriv4_neg (y : List K) (dt : K) {r : List K} (h : timeDeriv4 y dt = .ok r) :
    timeDeriv4 (y.map (fun x => -x)) dt = .ok (r.map (fun x => -x)) := by
  have := timeDeriv4_linear y y rfl (-1) 0 dt r r h h
  have e : ∀ l : List K, List.zipWith (fun u v => -1 * u + 0 * v) l l = l.map (fun x => -x) := by
    intro l
    induction l with
    | nil => rfl
    | cons a l ih => rw [List.zipWith_cons_cons, ih]; simp
  rwa [e, e] at this

theorem npZip_self_add (A : List K) : npZip (fun x y => 1 / 2 * (x + y)) A A = .ok A := by
  unfold npZip
  rw [if_pos rfl]
  congr 1
  induction A with
  | nil => rfl
  | cons a A ih => rw [List.zipWith_cons_cons, ih]; congr 1; ring

theorem npZip_self_neg (A : List K) : npZip (fun x y => 1 / 2 * (x - y)) A (A.map (fun x => -x)) = .ok A := by
  unfold npZip
  rw [if_pos (by simp)]
  congr 1
  induction A with
  | nil => rfl
  | cons a A ih => rw [List.map_cons, List.zipWith_cons_cons, ih]; congr 1; ring

/-- Modes with the symmetry of a nonprecessing system: the combination used for precessing systems is the (2,2) mode. -/
theorem C19_quantities (v : DataV K C) (tag : String) (A P W : List K)
    (ha : realMode v ("amplm" ++ tag) (2, 2) = some A) (ha' : realMode v ("amplm" ++ tag) (2, -2) = some A)
    (hp : realMode v ("phaselm" ++ tag) (2, 2) = some P) (hp' : realMode v ("phaselm" ++ tag) (2, -2) = some (P.map (- ·)))
    (hw : realMode v ("omegalm" ++ tag) (2, 2) = some W) (hw' : realMode v ("omegalm" ++ tag) (2, -2) = some (W.map (- ·))) :
    gwQuantities true v tag = .ok (A, P, W) ∧ gwQuantities false v tag = .ok (A, P, W) := by
  have key : ∀ {name : String} {k : LM} {x}, realMode v (name ++ tag) k = some x →
      ∃ d, getR v (name ++ tag) = .ok d ∧ d.get? k = some x := by
    intro name k x h
    unfold realMode at h
    cases he : v.get? (name ++ tag) with
    | none => rw [he] at h; cases h
    | some e =>
      rw [he] at h
      cases e with
      | modesR d => exact ⟨d, getR_of he, h⟩
      | _ => cases h
  obtain ⟨a, g1, g2⟩ := key ha
  obtain ⟨a', g1', g2'⟩ := key ha'
  rw [g1] at g1'; cases g1'
  obtain ⟨p, q1, q2⟩ := key hp
  obtain ⟨p', q1', q2'⟩ := key hp'
  rw [q1] at q1'; cases q1'
  obtain ⟨w, r1, r2⟩ := key hw
  obtain ⟨w', r1', r2'⟩ := key hw'
  rw [r1] at r1'; cases r1'
  unfold gwQuantities
  rw [g1, q1, r1]
  simp only [ok_bind, Dict.has, g2, g2', q2, q2', r2, r2', Dict.getItem]
  constructor
  · simp only [Bool.not_true, Bool.false_eq_true, if_false, Option.isSome_some, ok_bind]
    rw [npZip_self_add, npZip_self_neg, npZip_self_neg]
    rfl
  · rfl

variable [FloorRing K]

/-- The amplitude of mode `k` as given by the caller. -/
def Spec.ampMode (lib : WaveLib K C) (v : DataV K C) (k : LM) : Option (List K) :=
  if v.has "amplm" then realMode v "amplm" k else (complexMode v "hlm" k).map lib.abs

/-- The phase of mode `k` as given by the caller. -/
def Spec.phaseMode (lib : WaveLib K C) (v : DataV K C) (k : LM) : Option (List K) :=
  if v.has "phaselm" then realMode v "phaselm" k else (complexMode v "hlm" k).map lib.phase

/-- (2,2) and (2,-2) modes have the same amplitude and opposite phases (and frequencies, if given). -/
def Spec.NonprecessingSymmetry (lib : WaveLib K C) (v : DataV K C) : Prop :=
  (∃ A, ampMode lib v (2, 2) = some A ∧ ampMode lib v (2, -2) = some A) ∧
  (∃ P, phaseMode lib v (2, 2) = some P ∧ phaseMode lib v (2, -2) = some (P.map (- ·))) ∧
  (v.has "omegalm" = true → ∃ W, realMode v "omegalm" (2, 2) = some W ∧ realMode v "omegalm" (2, -2) = some (W.map (- ·)))

theorem newData_symmetric {lib : WaveLib K C} {v nd : DataV K C} (hp : ProperDicts v) (h : newData lib v = .ok nd)
    (hs : NonprecessingSymmetry lib v) : ∃ A P W, realMode nd "amplm" (2, 2) = some A ∧ realMode nd "amplm" (2, -2) = some A ∧
      realMode nd "phaselm" (2, 2) = some P ∧ realMode nd "phaselm" (2, -2) = some (P.map (- ·)) ∧
      realMode nd "omegalm" (2, 2) = some W ∧ realMode nd "omegalm" (2, -2) = some (W.map (- ·)) := by
  obtain ⟨⟨A, ha, ha'⟩, ⟨P, hph, hph'⟩, hw⟩ := hs
  obtain ⟨_, c2, c3, c4, c5⟩ := newData_contents hp h "" (Or.inl rfl) (2, 2)
  obtain ⟨_, d2, d3, d4, d5⟩ := newData_contents hp h "" (Or.inl rfl) (2, -2)
  have e2 : realMode nd "phaselm" (2, 2) = some P := c3.trans hph
  have e2' : realMode nd "phaselm" (2, -2) = some (P.map (- ·)) := d3.trans hph'
  refine ⟨A, P, ?_⟩
  cases hh : v.has "omegalm" with
  | true =>
    obtain ⟨W, w1, w2⟩ := hw hh
    exact ⟨W, c2.trans ha, d2.trans ha', e2, e2', (c4 hh).trans w1, (d4 hh).trans w2⟩
  | false =>
    obtain ⟨p, q, w, r1, _, r2, _, r4, r5, _⟩ := (newData_spec h).omega
    rcases r5 with r5 | ⟨_, t, w', ht, hw', rfl⟩
    · rw [(has_false_iff _ _).mp hh] at r5; cases r5
    have hn : p.keys.Nodup := by
      rcases realModes_spec lib.phase hp r1 with ⟨_, _, hn⟩ | ⟨_, c, _, hn, rfl⟩ | ⟨_, _, _, rfl⟩
      · exact hn
      · rw [keys_map]; exact hn
      · simp [Dict.keys]
    rw [realMode_of r2] at e2 e2'
    rcases omegaModes_spec hn hw' (2, 2) with ⟨e, _⟩ | ⟨φ, r, t0, t1, e1, e3, e4, e5, e6⟩
    · rw [e] at e2; cases e2
    rcases omegaModes_spec hn hw' (2, -2) with ⟨e, _⟩ | ⟨φ', r', t0', t1', f1, f3, f4, f5, f6⟩
    · rw [e] at e2'; cases e2'
    rw [e1] at e2
    rw [f1] at e2'
    cases e2
    cases e2'
    rw [e4] at f4
    rw [e5] at f5
    cases f4
    cases f5
    rw [timeDeriv4_neg _ _ e6] at f6
    cases f6
    refine ⟨r, c2.trans ha, d2.trans ha', c3.trans hph, d3.trans hph', ?_, ?_⟩
    · rw [realMode_of r4]; exact e3
    · rw [realMode_of r4]; exact f3

/-- For modes with the symmetry of a nonprecessing system, given in the frame they are used in, declaring the system
precessing or not makes no difference: same data, same merger, same width, same cut, same error. -/
theorem C19_same_run (lib : WaveLib K C) (pr : Flag) (frame : String) (v : DataV K C) (n : Option K) (hp : ProperDicts v)
    (hs : NonprecessingSymmetry lib v) (hf : pr ≠ .isTrue ∨ frame ≠ "inertial") :
    processData lib pr frame v n = processData lib .isFalse frame v n := by
  have hm : mustTransform pr frame = false := by
    unfold mustTransform; rcases hf with hf | hf <;> simp [hf]
  have hm' : mustTransform .isFalse frame = false := by unfold mustTransform; simp
  unfold processData
  rw [hm, hm']
  simp only [Bool.false_eq_true, if_false, pure_eq_ok, ok_bind]
  cases hn : newData lib v with
  | error e => rfl
  | ok nd =>
    simp only [ok_bind]
    obtain ⟨A, P, W, h1, h2, h3, h4, h5, h6⟩ := newData_symmetric hp hn hs
    obtain ⟨q1, q2⟩ := C19_quantities nd "" A P W h1 h2 h3 h4 h5 h6
    have : analyse lib pr.truth nd n = analyse lib Flag.isFalse.truth nd n := by
      unfold analyse
      have : gwQuantities pr.truth nd "" = gwQuantities Flag.isFalse.truth nd "" := by
        cases hpr : pr.truth
        · rfl
        · exact q1.trans q2.symm
      rw [this]
    rw [this]

end C19


/-! ## C20 -/

section C20
variable {K C : Type} [Field K] [LinearOrder K] [IsStrictOrderedRing K] [FloorRing K]

theorem realMode_cut {nd nd' : DataV K C} {name : String} {idx : ℕ} {e e' : Entry K C} (h : nd.get? name = some e)
    (h' : nd'.get? name = some e') (hc : cutEntry idx e = .ok e') (k : LM) :
    realMode nd' name k = (realMode nd name k).map (List.take idx) := by
  unfold realMode
  rw [h, h']
  cases e with
  | modesR d =>
    cases hc
    exact get?_map _ _ _
  | modesC d => cases hc; rfl
  | arr l => cases hc
  | other => cases hc

/-- Excluding no orbits keeps all samples. -/
theorem C20_none (lib : WaveLib K C) (pr : Flag) (frame : String) (v nd : DataV K C) (r : Analysis K) (hp : ProperDicts v)
    (h : processData lib pr frame v none = .ok (nd, r)) : r.cut = none ∧ nd.get? "t" = v.get? "t" := by
  obtain ⟨v', full, h1, h2, h3, h4, h5⟩ := processData_ok h
  obtain ⟨_, _, _, _, _, _, _, _, _, _, _, _, _, _, _, _, _, _, _, _, _, _, _, _, hcut⟩ := (analyse_spec h4).parts
  rcases hcut with ⟨_, hc⟩ | ⟨m, idx, hm', _⟩
  · refine ⟨hc, ?_⟩
    rcases h5 with ⟨_, rfl⟩ | ⟨idx, h5, _⟩
    · rw [(newData_spec h3).t.2]
      split at h2
      · unfold toCoprecessing at h2
        obtain ⟨w, hw, h2⟩ := bind_ok h2
        have e1 := (transform_t hp (Or.inl rfl) hw).1
        split at h2
        · rw [(transform_t (transform_proper hp hw) (Or.inr rfl) h2).1, e1]
        · cases h2; exact e1
      · cases h2; rfl
    · rw [hc] at h5; cases h5
  · cases hm'

/-- A negative number of orbits is refused. -/
theorem C20_negative (lib : WaveLib K C) (pr : Flag) (frame : String) (v : DataV K C) (n : K) (hn : n < 0) :
    ∃ err, processData lib pr frame v (some n) = .error err := by
  cases hr : processData lib pr frame v (some n) with
  | error e => exact ⟨e, rfl⟩
  | ok x =>
    obtain ⟨nd, r⟩ := x
    obtain ⟨v', full, h1, h2, h3, h4, h5⟩ := processData_ok hr
    obtain ⟨_, _, _, _, _, _, _, _, _, _, _, _, _, _, _, _, _, _, _, _, _, _, _, _, hcut⟩ := (analyse_spec h4).parts
    rcases hcut with ⟨h, _⟩ | ⟨m, idx, hm', h0, _⟩
    · cases h
    · cases hm'; exact absurd hn (not_lt.mpr h0)

/-- The phase of the waveform used to count orbits and its value at the sample nearest to the merger time. -/
def Spec.MergerPhase (pr : Flag) (full : DataV K C) (tMerger : K) (phase : List K) (pm : K) : Prop :=
  ∃ t mi amp omega, Spec.array full "t" = some t ∧ NearestSample t tMerger mi ∧
    gwQuantities pr.truth full "" = .ok (amp, phase, omega) ∧ phase[mi]? = some pm

theorem Spec.NearestSample.unique {l : List K} {x : K} {i j : ℕ} (hi : NearestSample l x i) (hj : NearestSample l x j) :
    i = j := by
  obtain ⟨hi1, hi2, hi3⟩ := hi
  obtain ⟨hj1, hj2, hj3⟩ := hj
  rcases lt_trichotomy i j with h | h | h
  · exact absurd (hi2 j hj1) (not_le.mpr (hj3 i hi1 h))
  · exact h
  · exact absurd (hj2 i hi1) (not_le.mpr (hi3 j hj1 h))

theorem pyGet_getElem? {α : Type} {l : List α} {i : ℕ} {a : α} (h : pyGet l i = .ok a) : l[i]? = some a := by
  obtain ⟨hl, e⟩ := pyGet_ok h
  rw [List.getElem?_eq_getElem hl, e]

theorem pyGet_of_getElem? {α : Type} {l : List α} {i : ℕ} {a : α} (h : l[i]? = some a) : pyGet l i = .ok a := by
  unfold pyGet; rw [h]

theorem mergerPhase_of {pr : Flag} {full : DataV K C} {tm pm : K} {phase t amp omega : List K} {mi : ℕ}
    (g1 : full.get? "t" = some (.arr t)) (g5 : argmin (t.map (fun x => |x - tm|)) = .ok mi)
    (g6 : gwQuantities pr.truth full "" = .ok (amp, phase, omega)) (g8 : pyGet phase mi = .ok pm) :
    Spec.MergerPhase pr full tm phase pm := by
  refine ⟨t, mi, amp, omega, ?_, argmin_abs_nearest g5, g6, pyGet_getElem? g8⟩
  unfold Spec.array; rw [g1]; rfl

/-- What excluding orbits does to a run that succeeds without: it succeeds exactly when the number is not negative and the
waveform starts at least that many orbits before merger; then the times and every mode of the eccentric waveform are cut
at one sample, the one whose phase is nearest to `4 pi n` before the merger, and nothing else changes. -/
theorem C20_cut (lib : WaveLib K C) (pr : Flag) (frame : String) (v full : DataV K C) (r : Analysis K) (n : K)
    (phase : List K) (pm : K)
    (h : processData lib pr frame v none = .ok (full, r)) (hm : Spec.MergerPhase pr full r.tMerger phase pm) :
    ((∃ p0, phase[0]? = some p0 ∧ p0 ≤ pm - 4 * lib.pi * n) ∧ 0 ≤ n →
      ∃ nd idx, processData lib pr frame v (some n) = .ok (nd, ⟨r.tMerger, r.ampMerger, r.width, some idx⟩) ∧
        NearestSample phase (pm - 4 * lib.pi * n) idx ∧
        (∀ t, Spec.array full "t" = some t → Spec.array nd "t" = some (t.take idx)) ∧
        (∀ name ∈ ["amplm", "phaselm", "omegalm"], ∀ k, realMode nd name k = (realMode full name k).map (List.take idx)) ∧
        ∀ key ∉ ["t", "amplm", "phaselm", "omegalm"], nd.get? key = full.get? key) ∧
    (¬ ((∃ p0, phase[0]? = some p0 ∧ p0 ≤ pm - 4 * lib.pi * n) ∧ 0 ≤ n) →
      ∃ err, processData lib pr frame v (some n) = .error err) := by
  obtain ⟨v', full', h1, h2, h3, h4, h5⟩ := processData_ok h
  obtain ⟨t, total, a, x, mi, amp, phase', omega, pm', om, p0, g1, g2, g3, g4, g5, g6, g7, g8, g9, g10, g11, g12, g13, g14⟩ :=
    (analyse_spec h4).parts
  have hf : full = full' := by
    rcases g14 with ⟨_, hc⟩ | ⟨m, idx, hm', _⟩
    · rcases h5 with ⟨_, rfl⟩ | ⟨idx, h5, _⟩
      · rfl
      · rw [hc] at h5; cases h5
    · cases hm'
  subst hf
  obtain ⟨t', mi', amp', omega', q1, q2, q3, q4⟩ := hm
  rw [g6] at q3
  cases q3
  have ht' : Spec.array full "t" = some t := by unfold Spec.array; rw [g1]; rfl
  rw [ht'] at q1
  cases q1
  have hmi : mi' = mi := q2.unique (argmin_abs_nearest g5)
  subst hmi
  rw [pyGet_getElem? g8] at q4
  cases q4
  have hrun := analyse_of g1 g2 g3 g4 g5 g6 g7 g8 g9 g10 g11 g12 g13 (some n) (r := r)
  have hproc : processData lib pr frame v (some n) = (do
      let r' ← analyse lib pr.truth full (some n)
      match r'.cut with
      | none => pure (full, r')
      | some idx => do
        let nd ← cutData idx full
        pure (nd, r')) := by
    unfold processData
    rw [h1]
    simp only [ok_bind]
    rw [h2]
    simp only [ok_bind]
    rw [h3]
    rfl
  constructor
  · rintro ⟨⟨p0', e0, hle⟩, hn⟩
    rw [pyGet_getElem? g10] at e0
    cases e0
    have hlen : (phase.map (fun x => |x - (pm - 4 * lib.pi * n)|)) ≠ [] := by
      intro he
      obtain ⟨hl, _⟩ := pyGet_ok g10
      rw [List.map_eq_nil_iff] at he
      rw [he] at hl
      exact absurd hl (by simp)
    obtain ⟨idx, hidx⟩ := argmin_ok hlen
    have hib : indexBeforeMerger lib.pi phase pm n = .ok idx := by
      unfold indexBeforeMerger
      rw [g10]
      simp only [ok_bind]
      rw [if_neg (not_lt.mpr hle)]
      exact hidx
    simp only [if_neg (not_lt.mpr hn), hib, ok_bind, pure_eq_ok] at hrun
    have hw : ∃ w, full.get? "omegalm" = some (.modesR w) := by
      unfold gwQuantities at g6
      obtain ⟨a', _, g6⟩ := bind_ok g6
      obtain ⟨p', _, g6⟩ := bind_ok g6
      split at g6
      · obtain ⟨_, _, g6⟩ := bind_ok g6
        obtain ⟨_, _, g6⟩ := bind_ok g6
        obtain ⟨w, hw, g6⟩ := bind_ok g6
        exact ⟨w, getR_ok hw⟩
      · split at g6
        · cases g6
        split at g6
        · cases g6
        obtain ⟨_, _, g6⟩ := bind_ok g6
        obtain ⟨_, _, g6⟩ := bind_ok g6
        obtain ⟨_, _, g6⟩ := bind_ok g6
        obtain ⟨_, _, g6⟩ := bind_ok g6
        obtain ⟨_, _, g6⟩ := bind_ok g6
        obtain ⟨_, _, g6⟩ := bind_ok g6
        obtain ⟨w, hw, g6⟩ := bind_ok g6
        exact ⟨w, getR_ok hw⟩
    obtain ⟨w, hw⟩ := hw
    obtain ⟨p, _, _, _, _, hph, _⟩ := (newData_spec h3).omega
    have hcd : ∃ nd, cutData idx full = .ok nd := by
      unfold cutData
      rw [getItem_of g2]
      simp only [ok_bind, cutEntry]
      rw [getItem_of (by rw [Dict.get?_set, if_neg (by decide)]; exact hph)]
      simp only [ok_bind, cutEntry]
      rw [getItem_of (by rw [Dict.get?_set, if_neg (by decide), Dict.get?_set, if_neg (by decide)]; exact hw)]
      simp only [ok_bind, cutEntry]
      rw [getArr_of (by
        rw [Dict.get?_set, if_neg (by decide), Dict.get?_set, if_neg (by decide), Dict.get?_set, if_neg (by decide)]
        exact g1)]
      exact ⟨_, rfl⟩
    obtain ⟨nd, hnd⟩ := hcd
    refine ⟨nd, idx, ?_, argmin_abs_nearest hidx, ?_⟩
    · rw [hproc, hrun]
      simp only [ok_bind]
      rw [hnd]
      rfl
    · obtain ⟨w0, w', t0, e1, e2, e3, e4⟩ := cutData_ok hnd g2 hph
      rw [g1] at e3
      cases e3
      rw [hw] at e1
      cases e1
      cases e2
      refine ⟨?_, ?_, ?_⟩
      · intro t1 ht1
        rw [ht'] at ht1
        cases ht1
        unfold Spec.array
        rw [e4, if_pos rfl]; rfl
      · intro name hname k
        simp only [List.mem_cons, List.not_mem_nil, or_false] at hname
        rcases hname with rfl | rfl | rfl
        · exact realMode_cut g2 (by rw [e4]; simp) rfl k
        · exact realMode_cut hph (by rw [e4]; simp) rfl k
        · exact realMode_cut hw (by rw [e4]; simp) rfl k
      · intro key hk
        simp only [List.mem_cons, List.not_mem_nil, or_false, not_or] at hk
        rw [e4]
        simp [hk]
  · intro hno
    rw [hproc, hrun]
    by_cases hn : n < 0
    · simp only [if_pos hn]; exact ⟨_, rfl⟩
    · simp only [if_neg hn]
      have : indexBeforeMerger lib.pi phase pm n = .error .exception := by
        unfold indexBeforeMerger
        rw [g10]
        simp only [ok_bind]
        rw [if_pos]
        by_contra hle
        exact hno ⟨⟨p0, pyGet_getElem? g10, not_lt.mp hle⟩, not_lt.mp hn⟩
      rw [this]
      exact ⟨_, rfl⟩

/-- A run that succeeds with some orbits excluded succeeds with none excluded, so the description of `C20_cut` applies to
every successful run. -/
theorem C20_cut_applies (lib : WaveLib K C) (pr : Flag) (frame : String) (v nd : DataV K C) (r : Analysis K) (n : K)
    (h : processData lib pr frame v (some n) = .ok (nd, r)) :
    ∃ full phase pm, processData lib pr frame v none = .ok (full, ⟨r.tMerger, r.ampMerger, r.width, none⟩) ∧
      Spec.MergerPhase pr full r.tMerger phase pm := by
  obtain ⟨v', full, h1, h2, h3, h4, h5⟩ := processData_ok h
  obtain ⟨t, total, a, x, mi, amp, phase, omega, pm, om, p0, g1, g2, g3, g4, g5, g6, g7, g8, g9, g10, g11, g12, g13, g14⟩ :=
    (analyse_spec h4).parts
  refine ⟨full, phase, pm, ?_, mergerPhase_of g1 g5 g6 g8⟩
  have hrun := analyse_of g1 g2 g3 g4 g5 g6 g7 g8 g9 g10 g11 g12 g13 none (r := r)
  unfold processData
  rw [h1]
  simp only [ok_bind]
  rw [h2]
  simp only [ok_bind]
  rw [h3]
  simp only [ok_bind]
  rw [hrun]
  rfl

/-- Excluding more orbits never keeps more samples, for a phase that does not decrease. -/
theorem C20_monotone (lib : WaveLib K C) (pr : Flag) (frame : String) (v nd nd' : DataV K C) (r r' : Analysis K) (n n' : K)
    (hpi : 0 ≤ lib.pi) (hnn : n ≤ n') (h : processData lib pr frame v (some n) = .ok (nd, r))
    (h' : processData lib pr frame v (some n') = .ok (nd', r'))
    (hinc : ∀ full r amp phase omega, processData lib pr frame v none = .ok (full, r) →
      gwQuantities pr.truth full "" = .ok (amp, phase, omega) → phase.Pairwise (· ≤ ·)) :
    ∃ (idx idx' : ℕ) (t : List K), r.cut = some idx ∧ r'.cut = some idx' ∧ idx' ≤ idx ∧
      Spec.array nd "t" = some (t.take idx) ∧ Spec.array nd' "t" = some (t.take idx') := by
  obtain ⟨full, phase, pm, e1, e2⟩ := C20_cut_applies lib pr frame v nd r n h
  obtain ⟨full', phase', pm', e1', e2'⟩ := C20_cut_applies lib pr frame v nd' r' n' h'
  rw [e1] at e1'
  simp only [Except.ok.injEq, Prod.mk.injEq, Analysis.mk.injEq] at e1'
  obtain ⟨rfl, ht, _⟩ := e1'
  rw [← ht] at e2'
  have hsame : phase' = phase ∧ pm' = pm := by
    obtain ⟨t, mi, amp, omega, q1, q2, q3, q4⟩ := e2
    obtain ⟨t', mi', amp', omega', q1', q2', q3', q4'⟩ := e2'
    rw [q1] at q1'
    cases q1'
    rw [q3] at q3'
    cases q3'
    rw [q2.unique q2'] at q4
    rw [q4] at q4'
    cases q4'
    exact ⟨rfl, rfl⟩
  obtain ⟨rfl, rfl⟩ := hsame
  have c := C20_cut lib pr frame v full _ n phase' pm' e1 e2
  have c' := C20_cut lib pr frame v full _ n' phase' pm' e1 e2
  have hok : (∃ p0, phase'[0]? = some p0 ∧ p0 ≤ pm' - 4 * lib.pi * n) ∧ 0 ≤ n := by
    by_contra hno
    obtain ⟨err, he⟩ := c.2 hno
    rw [h] at he; cases he
  have hok' : (∃ p0, phase'[0]? = some p0 ∧ p0 ≤ pm' - 4 * lib.pi * n') ∧ 0 ≤ n' := by
    by_contra hno
    obtain ⟨err, he⟩ := c'.2 hno
    rw [h'] at he; cases he
  obtain ⟨nd1, idx, f1, f2, f3, _⟩ := c.1 hok
  obtain ⟨nd1', idx', f1', f2', f3', _⟩ := c'.1 hok'
  rw [h] at f1
  rw [h'] at f1'
  simp only [Except.ok.injEq, Prod.mk.injEq] at f1 f1'
  obtain ⟨rfl, hc⟩ := f1
  obtain ⟨rfl, hc'⟩ := f1'
  obtain ⟨t, mi, amp, omega, q1, q2, q3, q4⟩ := e2
  refine ⟨idx, idx', t, congrArg Analysis.cut hc, congrArg Analysis.cut hc', ?_, f3 t q1, f3' t q1⟩
  refine NearestSample.mono (hinc full _ amp phase' omega e1 q3) ?_ f2' f2
  have : lib.pi * n ≤ lib.pi * n' := mul_le_mul_of_nonneg_left hnn hpi
  linarith

end C20

/-! ## C65 -/

section C65
variable {K C : Type} [Field K] [LinearOrder K] [IsStrictOrderedRing K] [FloorRing K]

/-- The width handed to the peak finder is not negative when neither phase nor time decreases. -/
theorem C65_nonneg (lib : WaveLib K C) (pr : Flag) (frame : String) (v : DataV K C) (n : Option K) (nd : DataV K C)
    (r : Analysis K) (hpi : 0 ≤ lib.pi) (h : processData lib pr frame v n = .ok (nd, r))
    (hinc : ∀ full r, processData lib pr frame v none = .ok (full, r) →
      (∀ t, Spec.array full "t" = some t → t.Pairwise (· ≤ ·)) ∧
      ∀ amp phase omega, gwQuantities pr.truth full "" = .ok (amp, phase, omega) → phase.Pairwise (· ≤ ·)) :
    0 ≤ r.width := by
  have hnone : ∃ full r0, processData lib pr frame v none = .ok (full, r0) ∧ r0.width = r.width := by
    cases n with
    | none => exact ⟨nd, r, h, rfl⟩
    | some n =>
      obtain ⟨full, _, _, e, _⟩ := C20_cut_applies lib pr frame v nd r n h
      exact ⟨full, _, e, rfl⟩
  obtain ⟨full, r0, h0, hw⟩ := hnone
  rw [← hw]
  obtain ⟨v', full', h1, h2, h3, h4, h5⟩ := processData_ok h0
  obtain ⟨t, total, a, x, mi, amp, phase, omega, pm, om, p0, g1, g2, g3, g4, g5, g6, g7, g8, g9, g10, g11, g12, g13, g14⟩ :=
    (analyse_spec h4).parts
  have hf : full = full' := by
    rcases g14 with ⟨_, hc⟩ | ⟨m, idx, hm', _⟩
    · rcases h5 with ⟨_, rfl⟩ | ⟨idx, h5, _⟩
      · rfl
      · rw [hc] at h5; cases h5
    · cases hm'
  subst hf
  obtain ⟨ht, hph⟩ := hinc full r0 h0
  have ht := ht t (by unfold Spec.array; rw [g1]; rfl)
  have hph := hph amp phase omega g6
  unfold peakWidth at g13
  obtain ⟨i2, e1, g13⟩ := bind_ok g13
  obtain ⟨t2, e2, g13⟩ := bind_ok g13
  obtain ⟨i1, e3, g13⟩ := bind_ok g13
  obtain ⟨t1, e4, g13⟩ := bind_ok g13
  obtain ⟨s1, e5, g13⟩ := bind_ok g13
  obtain ⟨s0, e6, g13⟩ := bind_ok g13
  split at g13
  · cases g13
  rename_i hne
  have g13 : _ = r0.width := Except.ok.inj g13
  rw [← g13]
  have hle : i2 ≤ i1 := NearestSample.mono hph (by linarith) (indexBeforeMerger_ok e1).1 (indexBeforeMerger_ok e3).1
  obtain ⟨l2, rfl⟩ := pyGet_ok e2
  obtain ⟨l1, rfl⟩ := pyGet_ok e4
  obtain ⟨m1, rfl⟩ := pyGet_ok e5
  obtain ⟨m0, rfl⟩ := pyGet_ok e6
  have hmono : ∀ i j (hi : i < t.length) (hj : j < t.length), i ≤ j → t[i] ≤ t[j] := by
    intro i j hi hj hij
    rcases Nat.lt_or_eq_of_le hij with hlt | rfl
    · exact List.pairwise_iff_getElem.mp ht i j hi hj hlt
    · exact le_rfl
  apply pyInt_nonneg
  have a1 := hmono i2 i1 l2 l1 hle
  have a2 := hmono 0 1 m0 m1 (by omega)
  apply div_nonneg _ (by norm_num)
  exact div_nonneg (by linarith) (by linarith)

end C65

end GwEcc
