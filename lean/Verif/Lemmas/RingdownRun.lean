import Verif.Lemmas.Ringdown

/-! A call with a waveform that is cut off some samples after the merger. -/

set_option linter.unusedSectionVars false

namespace GwEcc

namespace Longer

open Spec Turned

theorem eq_of_get {κ V : Type} [DecidableEq κ] : ∀ {v w : Dict κ V}, w.keys = v.keys → v.keys.Nodup → (∀ k, w.get? k = v.get? k) → w = v
  | [], [], _, _, _ => rfl
  | [], _ :: _, h, _, _ => by cases h
  | _ :: _, [], h, _, _ => by cases h
  | (k, x) :: v, (k', x') :: w, h, hn, hg => by
    unfold Dict.keys at h hn
    simp only [List.map_cons, List.cons.injEq, List.nodup_cons] at h hn
    obtain ⟨rfl, h⟩ := h
    have h0 := hg k'
    rw [Dict.get?_cons, Dict.get?_cons, if_pos rfl, if_pos rfl] at h0
    cases h0
    refine congrArg _ (eq_of_get h hn.2 fun j => ?_)
    by_cases hj : j = k'
    · subst hj
      have none : ∀ u : Dict κ V, u.keys = List.map Prod.fst v → u.get? j = none := by
        intro u hu
        cases hc : u.get? j with
        | none => rfl
        | some y =>
          have : j ∈ u.keys := List.mem_map.mpr ⟨(j, y), mem_of_get? hc, rfl⟩
          exact absurd (hu ▸ this : j ∈ List.map Prod.fst v) hn.1
      rw [none w h, none v rfl]
    · have := hg j
      rw [Dict.get?_cons, Dict.get?_cons, if_neg hj, if_neg hj] at this
      exact this

section
variable {K C : Type} [Field K] [LinearOrder K] [IsStrictOrderedRing K] [FloorRing K]

theorem getR_takeN {n L : ℕ} {nd nd' : DataV K C} (h : DRel (PNt n L) nd nd') {key : String}
    (hk : key = "amplm" ∨ key = "phaselm") : PyRel (FRel (fun _ => TakeL n L)) (getR nd key) (getR nd' key) := by
  unfold getR
  refine PyRel.bind (h.getItem key) fun e e' he => ?_
  unfold PNt at he
  rw [if_neg (by rcases hk with rfl | rfl <;> decide), if_pos hk] at he
  obtain ⟨d, d', rfl, rfl, hd⟩ := he
  exact .ok hd

theorem getR_takeO {n L : ℕ} {nd nd' : DataV K C} (h : DRel (PNt n L) nd nd') :
    PyRel (FRel (fun _ => OmL n L)) (getR nd "omegalm") (getR nd' "omegalm") := by
  unfold getR
  refine PyRel.bind (h.getItem _) fun e e' he => ?_
  unfold PNt at he
  rw [if_neg (by decide), if_neg (by decide), if_pos rfl] at he
  obtain ⟨d, d', rfl, rfl, hd⟩ := he
  exact .ok hd

theorem getArr_takeN {n L : ℕ} {nd nd' : DataV K C} (h : DRel (PNt n L) nd nd') :
    PyRel (TakeL n L) (getArr nd "t") (getArr nd' "t") := by
  unfold getArr
  refine PyRel.bind (h.getItem _) fun e e' he => ?_
  unfold PNt at he
  rw [if_pos rfl] at he
  obtain ⟨t, rfl, rfl, ht⟩ := he
  exact .ok ⟨ht, rfl⟩

theorem npZip_take {n L : ℕ} (f : K → K → K) {x y x' y' : List K} (hx : TakeL n L x x') (hy : TakeL n L y y') :
    PyRel (TakeL n L) (npZip f x y) (npZip f x' y') := by
  obtain ⟨h1, rfl⟩ := hx
  obtain ⟨h2, rfl⟩ := hy
  unfold npZip
  rw [if_pos (by rw [h1, h2]), if_pos (by rw [List.length_take, List.length_take, h1, h2])]
  exact .ok ⟨by rw [List.length_zipWith, h1, h2, min_self], by rw [List.take_zipWith]⟩

theorem npZip_om {n L : ℕ} (f : K → K → K) {x y x' y' : List K} (hx : OmL n L x x') (hy : OmL n L y y') :
    PyRel (OmL n L) (npZip f x y) (npZip f x' y') := by
  obtain ⟨h1, h2, h3⟩ := hx
  obtain ⟨g1, g2, g3⟩ := hy
  unfold npZip
  rw [if_pos (by rw [h1, g1]), if_pos (by rw [h2, g2])]
  exact .ok ⟨by rw [List.length_zipWith, h1, g1, min_self], by rw [List.length_zipWith, h2, g2, min_self],
    by rw [List.take_zipWith, List.take_zipWith, h3, g3]⟩

theorem gwQuantities_take {n L : ℕ} {nd nd' : DataV K C} (h : DRel (PNt n L) nd nd') (pr : Bool) :
    PyRel (fun r r' => TakeL n L r.1 r'.1 ∧ TakeL n L r.2.1 r'.2.1 ∧ OmL n L r.2.2 r'.2.2) (gwQuantities pr nd "")
      (gwQuantities pr nd' "") := by
  unfold gwQuantities
  simp only [String.append_empty]
  refine PyRel.bind (getR_takeN h (.inl rfl)) fun a a' ha => ?_
  refine PyRel.bind (getR_takeN h (.inr rfl)) fun p p' hp => ?_
  refine PyRel.ite Iff.rfl (fun _ _ => ?_) fun _ _ => ?_
  · refine PyRel.bind (ha.toD.getItem (2, 2)) fun x x' hx => ?_
    refine PyRel.bind (hp.toD.getItem (2, 2)) fun y y' hy => ?_
    refine PyRel.bind (getR_takeO h) fun w w' hw => ?_
    refine PyRel.bind (hw.toD.getItem (2, 2)) fun z z' hz => ?_
    exact .ok ⟨hx, hy, hz⟩
  rw [ha.toD.has]
  refine PyRel.ite Iff.rfl (fun _ _ => .error _) fun _ _ => ?_
  rw [hp.toD.has]
  refine PyRel.ite Iff.rfl (fun _ _ => .error _) fun _ _ => ?_
  refine PyRel.bind (ha.toD.getItem (2, 2)) fun x x' hx => ?_
  refine PyRel.bind (ha.toD.getItem (2, -2)) fun y y' hy => ?_
  refine PyRel.bind (npZip_take _ hx hy) fun A A' hA => ?_
  refine PyRel.bind (hp.toD.getItem (2, 2)) fun x2 x2' hx2 => ?_
  refine PyRel.bind (hp.toD.getItem (2, -2)) fun y2 y2' hy2 => ?_
  refine PyRel.bind (npZip_take _ hx2 hy2) fun P P' hP => ?_
  refine PyRel.bind (getR_takeO h) fun w w' hw => ?_
  refine PyRel.bind (hw.toD.getItem (2, 2)) fun x x' hx => ?_
  refine PyRel.bind (hw.toD.getItem (2, -2)) fun y y' hy => ?_
  refine PyRel.bind (npZip_om _ hx hy) fun W W' hW => ?_
  exact .ok ⟨hA, hP, hW⟩

/-! ### The modes in terms of what is given -/

theorem get?_map {κ V W : Type} [DecidableEq κ] (f : V → W) (d : Dict κ V) (k : κ) :
    Dict.get? (d.map fun p => (p.1, f p.2)) k = (d.get? k).map f := Dict.get?_mapE (fun _ x => f x) d k

theorem phases_given {lib : WaveLib K C} {v : DataV K C} (hp : ProperDicts v) {p : Dict LM (List K)}
    (h : realModes lib.phase "phaselm" "" v = .ok p) (k : LM) : phaseOf lib v k = p.get? k := by
  unfold phaseOf
  rcases realModes_spec lib.phase hp h with ⟨h1, h2, _⟩ | ⟨h1, c, h2, _, rfl⟩ | ⟨_, _, h3, _⟩
  · rw [String.append_empty] at h1 h2
    rw [if_pos h1, realMode_of h2]
  · rw [String.append_empty] at h1 h2
    rw [if_neg (by rw [h1]; decide), complexMode_of h2, get?_map]
  · exact absurd rfl h3

theorem amps_given {lib : WaveLib K C} {v : DataV K C} (hp : ProperDicts v) {a : Dict LM (List K)}
    (h : realModes lib.abs "amplm" "" v = .ok a) : amplitudes lib v = some (a.map Prod.snd) := by
  unfold amplitudes
  rcases realModes_spec lib.abs hp h with ⟨h1, h2, _⟩ | ⟨h1, c, h2, _, rfl⟩ | ⟨_, _, h3, _⟩
  · rw [String.append_empty] at h1 h2
    rw [h2]
  · rw [String.append_empty] at h1 h2
    rw [(has_false_iff _ _).mp h1, h2, List.map_map]
    rfl
  · exact absurd rfl h3

theorem gwPhase_given {lib : WaveLib K C} {v nd : DataV K C} (hp : ProperDicts v) (hnd : newData lib v = .ok nd) {pr : Bool}
    {amp phase omega : List K} (h : gwQuantities pr nd "" = .ok (amp, phase, omega)) : gwPhase lib v pr = some phase := by
  obtain ⟨p, q, w, hp1, _, hnp, _⟩ := (newData_spec hnd).omega
  unfold gwQuantities at h
  simp only [String.append_empty] at h
  rw [getR_of hnp] at h
  obtain ⟨a, ha, h⟩ := bind_ok h
  simp only [ok_bind] at h
  unfold gwPhase
  rw [phases_given hp hp1, phases_given hp hp1]
  cases pr with
  | false =>
    rw [if_pos (by rfl)] at h
    obtain ⟨x, hx, h⟩ := bind_ok h
    obtain ⟨y, hy, h⟩ := bind_ok h
    obtain ⟨w, hw, h⟩ := bind_ok h
    obtain ⟨z, hz, h⟩ := bind_ok h
    cases h
    rw [if_neg (by decide), getItem_ok hy]
  | true =>
    rw [if_neg (by decide)] at h
    split at h
    · cases h
    split at h
    · cases h
    obtain ⟨x, hx, h⟩ := bind_ok h
    obtain ⟨x', hx', h⟩ := bind_ok h
    obtain ⟨A, hA, h⟩ := bind_ok h
    obtain ⟨y, hy, h⟩ := bind_ok h
    obtain ⟨y', hy', h⟩ := bind_ok h
    obtain ⟨P, hP, h⟩ := bind_ok h
    obtain ⟨w, hw, h⟩ := bind_ok h
    obtain ⟨z, hz, h⟩ := bind_ok h
    obtain ⟨z', hz', h⟩ := bind_ok h
    obtain ⟨W, hW, h⟩ := bind_ok h
    cases h
    unfold npZip at hP
    split at hP
    · cases hP
      rw [if_pos rfl, getItem_ok hy, getItem_ok hy']
      rfl
    · cases hP

/-! ### Merger and cut -/

theorem merger_le {t : List K} {tM x : K} {k mi : ℕ} (ht : t.Pairwise (· < ·)) (hk : t[k]? = some x) (hx : tM ≤ x)
    (h : argmin (t.map fun x => |x - tM|) = .ok mi) : mi ≤ k := by
  obtain ⟨h1, h2, h3⟩ := argmin_spec h
  by_contra hlt
  rw [List.length_map] at h1
  obtain ⟨hk', rfl⟩ := List.getElem?_eq_some_iff.mp hk
  have := h3 k (by rw [List.length_map]; exact hk') (by omega)
  simp only [List.getElem_map] at this
  have hlt' := List.pairwise_iff_getElem.mp ht k mi hk' h1 (by omega)
  rw [abs_of_nonneg (by linarith), abs_of_nonneg (by linarith)] at this
  linarith

theorem index_le {pi pm m : K} {φ : List K} {k mi i : ℕ} (hpi : 0 < pi) (hm : 0 ≤ m) (hmi : mi ≤ k) (hpm : φ[mi]? = some pm)
    (hlater : ∀ i j x y, i ≤ k → k < j → φ[i]? = some x → φ[j]? = some y → x ≤ y)
    (h : indexBeforeMerger pi φ pm m = .ok i) : i ≤ k := by
  unfold indexBeforeMerger at h
  obtain ⟨p0, _, h⟩ := bind_ok h
  split at h
  · cases h
  obtain ⟨h1', h2, h3⟩ := argmin_spec h
  have h1 : i < φ.length := by rwa [List.length_map] at h1'
  by_contra hlt
  obtain ⟨hm', rfl⟩ := List.getElem?_eq_some_iff.mp hpm
  have := h3 mi (by rw [List.length_map]; exact hm') (by omega)
  simp only [List.getElem_map] at this
  have hle := hlater mi i _ _ hmi (by omega) hpm (List.getElem?_eq_getElem h1)
  have hpos : 0 ≤ 4 * pi * m := by positivity
  rw [abs_of_nonneg (by linarith), abs_of_nonneg (by linarith)] at this
  linarith

theorem index_take {pi pm m : K} {φ : List K} {k mi n : ℕ} (hpi : 0 < pi) (hm : 0 ≤ m) (hmi : mi ≤ k) (hk : k + 2 < n)
    (hpm : φ[mi]? = some pm)
    (hlater : ∀ i j x y, i ≤ k → k < j → φ[i]? = some x → φ[j]? = some y → x ≤ y) :
    PyRel (fun i j => j = i ∧ i ≤ k) (indexBeforeMerger pi φ pm m) (indexBeforeMerger pi (φ.take n) pm m) := by
  cases h : indexBeforeMerger pi φ pm m with
  | ok i =>
    have hi := index_le hpi hm hmi hpm hlater h
    have : indexBeforeMerger pi (φ.take n) pm m = .ok i := by
      unfold indexBeforeMerger at h ⊢
      rw [pyGet_take _ (by omega)]
      obtain ⟨p0, hp0, h⟩ := bind_ok h
      rw [hp0, ok_bind]
      split at h
      · cases h
      rename_i hc
      rw [if_neg hc, List.map_take]
      exact argmin_take h (by omega)
    rw [this]
    exact .ok ⟨rfl, hi⟩
  | error e =>
    have : indexBeforeMerger pi (φ.take n) pm m = .error e := by
      unfold indexBeforeMerger at h ⊢
      rw [pyGet_take _ (by omega)]
      cases hp0 : pyGet φ 0 with
      | error e' => rw [hp0] at h; exact h
      | ok p0 =>
        rw [hp0, ok_bind] at h
        rw [ok_bind]
        split at h
        · rename_i hc; rw [if_pos hc]; exact h
        · cases φ with
          | nil => simp at hpm
          | cons a s => cases h
    rw [this]
    exact .error e

theorem pyGet_ok' {l : List K} {i : ℕ} {x : K} (h : pyGet l i = .ok x) : l[i]? = some x := by
  unfold pyGet at h
  cases hx : l[i]? with
  | none => rw [hx] at h; cases h
  | some y => rw [hx] at h; cases h; rfl

theorem analyse_take {lib : WaveLib K C} (hl : SampleBySample lib) (hpi : 0 < lib.pi) {n L : ℕ} (hL : n ≤ L) {v nd nd' : DataV K C}
    (hv : Regular lib v L) {pr : Bool} (ho : OverBy lib v pr n) (hnd : newData lib v = .ok nd) (hF : FRel (PNt n L) nd nd')
    (m : Option K) :
    PyRel (fun r r' => r' = r ∧ ∀ idx, r.cut = some idx → idx + 2 < n) (analyse lib pr nd m) (analyse lib pr nd' m) := by
  have hD := hF.toD
  have hn := ho.enough
  have sp := newData_spec hnd
  obtain ⟨am, _, hal, _, hna, _⟩ := sp.amp
  unfold analyse
  refine PyRel.bind_of (getArr_takeN hD) fun t t' hg _ ht => ?_
  obtain ⟨htL, rfl⟩ := ht
  have hgt : array v "t" = some t := array_of (sp.t.2 ▸ getArr_ok hg)
  refine PyRel.bind_of (getR_takeN hD (.inl rfl)) fun a a' hga hga' ha => ?_
  have haa : a = am := by have := getR_ok hga; rw [hna] at this; cases this; rfl
  subst haa
  have hA := amps_given hv.proper hal
  have e1 : a'.map Prod.snd = (a.map Prod.snd).map (·.take n) := by
    clear hga hga' hal hna hA
    induction ha with
    | nil => rfl
    | cons h _ ih => exact congrArg₂ List.cons h.2.2 ih
  have e2 : ∀ l ∈ a.map Prod.snd, l.length = L := by
    intro l hl
    obtain ⟨p, hp, rfl⟩ := List.mem_map.mp hl
    obtain ⟨i, hi, rfl⟩ := List.mem_iff_getElem.mp hp
    exact ((List.forall₂_iff_get.mp ha).2 i hi ((List.Forall₂.length_eq ha) ▸ hi)).2.1
  rw [e1, hl.total n L _ e2]
  cases hT : lib.totalAmp (a.map Prod.snd) with
  | error e => exact .error e
  | ok T =>
    obtain ⟨hTl, i, x, hi, hx, hmax⟩ := ho.loudest t _ T hgt hA hT
    rw [ok_bind]
    show PyRel _ _ ((peakTime (t.take n) (T.take n)) >>= _)
    rw [peakTime_take hn (htL ▸ hL) hTl hi hx hmax]
    cases hpk : peakTime t T with
    | error e => exact .error e
    | ok q =>
      obtain ⟨tM, fM⟩ := q
      rw [ok_bind, ok_bind]
      dsimp only
      cases hmi : argmin (t.map fun x => |x - tM|) with
      | error e =>
        cases t with
        | nil => simp at htL; omega
        | cons a s => cases hmi
      | ok mi =>
        rw [List.map_take]
        rw [ok_bind]
        obtain ⟨k, hk, ⟨x, hx, hle⟩, hlater⟩ := ho.merger t _ T tM fM hgt hA hT hpk
        have hmk := merger_le (ho.increasing t hgt).2 hx hle hmi
        rw [argmin_take hmi (n := n) (by omega), ok_bind]
        refine PyRel.bind_of (gwQuantities_take hD pr) fun q q' hgq _ hq => ?_
        obtain ⟨amp, phase, omega⟩ := q
        obtain ⟨amp', phase', omega'⟩ := q'
        dsimp only at hq
        obtain ⟨⟨_, rfl⟩, ⟨hpL, rfl⟩, hO⟩ := hq
        have hlater := hlater phase (gwPhase_given hv.proper hnd hgq)
        dsimp only
        rw [pyGet_take amp (by omega), pyGet_take phase (by omega), pyGet_take phase (by omega),
          pyGet_of_take (i := mi) (n := n - 2) (by omega) hO.2.2]
        refine PyRel.bind (PyRel.same _) fun aM _ haM => ?_
        subst haM
        refine PyRel.bind_of (PyRel.same _) fun pM _ hpM _ e => ?_
        subst e
        have hpM := pyGet_ok' hpM
        refine PyRel.bind (PyRel.same _) fun oM _ hoM => ?_
        subst hoM
        refine PyRel.bind (PyRel.same _) fun p0 _ hp0 => ?_
        subst hp0
        refine PyRel.ite Iff.rfl (fun _ _ => .error _) fun _ _ => ?_
        refine PyRel.ite Iff.rfl (fun _ _ => .error _) fun _ _ => ?_
        refine PyRel.bind (R := fun a b => b = a) ?_ fun width _ hw => ?_
        · unfold peakWidth
          refine PyRel.bind (index_take hpi (by norm_num) hmk hk hpM hlater) fun i2 _ ⟨e, hi2⟩ => ?_
          subst e
          rw [pyGet_take t (by omega)]
          refine PyRel.bind (PyRel.same _) fun t2 _ e => ?_
          subst e
          refine PyRel.bind (index_take hpi (by norm_num) hmk hk hpM hlater) fun i1 _ ⟨e, hi1⟩ => ?_
          subst e
          rw [pyGet_take t (by omega), pyGet_take t (by omega), pyGet_take t (by omega)]
          exact same_rel _
        subst hw
        cases m with
        | none => exact .ok ⟨rfl, fun idx h => by cases h⟩
        | some m =>
          dsimp only
          refine PyRel.ite Iff.rfl (fun _ _ => .error _) fun hm _ => ?_
          refine PyRel.bind (index_take hpi (not_lt.mp hm) hmk hk hpM hlater) fun idx _ ⟨e, hidx⟩ => ?_
          subst e
          exact .ok ⟨rfl, fun i h => by cases h; omega⟩

theorem cut_real {idx : ℕ} {R : List K → List K → Prop}
    (hR : ∀ l l', R l l' → l'.take idx = l.take idx) {d d' : Dict LM (List K)} (h : FRel (fun _ => R) d d') :
    (d'.map fun p => (p.1, p.2.take idx)) = d.map fun p => (p.1, p.2.take idx) := by
  induction h with
  | nil => rfl
  | cons h _ ih => rw [List.map_cons, List.map_cons, ih, h.1, hR _ _ h.2]

theorem newData_nodup {lib : WaveLib K C} {v nd : DataV K C} (h : newData lib v = .ok nd) : nd.keys.Nodup := by
  unfold newData at h
  split at h
  case isFalse => cases h
  obtain ⟨t, _, h⟩ := bind_ok h
  obtain ⟨d, hd, h⟩ := bind_ok h
  obtain ⟨e, _, h⟩ := bind_ok h
  cases h
  refine nodup_update ?_
  split at hd
  · obtain ⟨z, _, hd⟩ := bind_ok hd
    cases hd
    exact Dict.nodup_set _ _ (List.nodup_singleton _)
  · cases hd
    exact List.nodup_singleton _

/-- Once cut, the entries of these keys are the same. -/
def PCut (n L : ℕ) (done : List String) (k : String) (e e' : Entry K C) : Prop := if k ∈ done then e' = e else PNt n L k e e'

theorem cutEntry_take {n L idx : ℕ} (hi : idx + 2 < n) {key : String} (hk : key ∈ ["amplm", "phaselm", "omegalm"]) {e e' : Entry K C}
    (h : PNt n L key e e') : PyRel (fun a b => b = a) (cutEntry idx e) (cutEntry idx e') := by
  have take : ∀ m, idx ≤ m → ∀ l l' : List K, l'.take m = l.take m → l'.take idx = l.take idx := by
    intro m hm l l' h
    rw [← min_eq_left hm, ← List.take_take, ← List.take_take, h]
  unfold PNt at h
  simp only [List.mem_cons, List.not_mem_nil, or_false] at hk
  rw [if_neg (by rcases hk with rfl | rfl | rfl <;> decide)] at h
  split at h
  · obtain ⟨d, d', rfl, rfl, hd⟩ := h
    refine .ok (congrArg Entry.modesR (cut_real (R := TakeL n L) ?_ hd))
    rintro l l' ⟨_, rfl⟩
    rw [List.take_take, min_eq_left (by omega)]
  rename_i hk2
  rw [if_pos (by tauto)] at h
  obtain ⟨d, d', rfl, rfl, hd⟩ := h
  refine .ok (congrArg Entry.modesR (cut_real (R := OmL n L) ?_ hd))
  rintro l l' ⟨_, _, h⟩
  exact take _ (by omega) _ _ h

theorem PCut.notDone {n L : ℕ} {done : List String} {k : String} (hk : k ∉ done) {e e' : Entry K C} (h : PCut n L done k e e') :
    PNt n L k e e' := by
  unfold PCut at h
  rwa [if_neg hk] at h

theorem PCut.set {n L : ℕ} {done : List String} {v w : DataV K C} (h : DRel (PCut n L done) v w) (k : String) (x : Entry K C) :
    DRel (PCut n L (k :: done)) (Dict.set v k x) (Dict.set w k x) := by
  refine h.set' (fun j hj a b hab => ?_) ?_
  · unfold PCut at hab ⊢
    simp only [List.mem_cons, hj, false_or]
    exact hab
  · unfold PCut
    rw [if_pos (by simp)]

theorem cutData_take {n L idx : ℕ} (hi : idx + 2 < n) {nd nd' : DataV K C} (h : FRel (PNt n L) nd nd') (hn : nd.keys.Nodup) :
    PyRel (fun a b => b = a) (cutData idx nd) (cutData idx nd') := by
  have hT : FRel (fun _ _ _ => True) nd nd' := List.Forall₂.imp (fun a b h => ⟨h.1, trivial⟩) h
  have h : DRel (PCut n L []) nd nd' := h.toD.mono fun k a b _ hab => by unfold PCut; rw [if_neg (by simp)]; exact hab
  unfold cutData
  refine PyRel.bind (h.getItem _) fun a a' haa => ?_
  refine PyRel.bind (cutEntry_take hi (by simp) (haa.notDone (by simp))) fun _ a e => ?_
  subst e
  have h := PCut.set h "amplm" a
  have hT := hT.set (k := "amplm") (x := a) (y := a) trivial
  have hn := Dict.nodup_set "amplm" a hn
  refine PyRel.bind (h.getItem _) fun p p' hpp => ?_
  refine PyRel.bind (cutEntry_take hi (by simp) (hpp.notDone (by simp))) fun _ p e => ?_
  subst e
  have h := PCut.set h "phaselm" p
  have hT := hT.set (k := "phaselm") (x := p) (y := p) trivial
  have hn := Dict.nodup_set "phaselm" p hn
  refine PyRel.bind (h.getItem _) fun w w' hww => ?_
  refine PyRel.bind (cutEntry_take hi (by simp) (hww.notDone (by simp))) fun _ w e => ?_
  subst e
  have h := PCut.set h "omegalm" w
  have hT := hT.set (k := "omegalm") (x := w) (y := w) trivial
  have hn := Dict.nodup_set "omegalm" w hn
  refine PyRel.bind (R := TakeL n L) ?_ fun t t' ht => ?_
  · unfold getArr
    refine PyRel.bind (h.getItem _) fun e e' he => ?_
    have he := he.notDone (by simp)
    unfold PNt at he
    rw [if_pos rfl] at he
    obtain ⟨t, rfl, rfl, ht⟩ := he
    exact .ok ⟨ht, rfl⟩
  obtain ⟨_, rfl⟩ := ht
  rw [List.take_take, min_eq_left (by omega)]
  have h := PCut.set h "t" (.arr (t.take idx))
  have hT := hT.set (k := "t") (x := .arr (t.take idx)) (y := .arr (t.take idx)) trivial
  have hn := Dict.nodup_set "t" (.arr (t.take idx)) hn
  refine .ok (eq_of_get hT.keys hn fun k => ?_)
  have hk := h k
  revert hk
  generalize Dict.get? _ k = y
  generalize Dict.get? _ k = x
  intro hk
  cases hk with
  | none => rfl
  | some hk =>
    refine congrArg some ?_
    unfold PCut at hk
    by_cases hd : k ∈ ["t", "omegalm", "phaselm", "amplm"]
    · rwa [if_pos hd] at hk
    · rw [if_neg hd] at hk
      simp only [List.mem_cons, List.not_mem_nil, or_false, not_or] at hd
      unfold PNt at hk
      rwa [if_neg hd.1, if_neg (by tauto), if_neg hd.2.1] at hk

theorem processData_take {lib : WaveLib K C} (hl : SampleBySample lib) (hpi : 0 < lib.pi) {n L : ℕ} {v : DataV K C}
    (hv : Regular lib v L) {pr : Flag} {frame : String} (hf : mustTransform pr frame = false) (ho : OverBy lib v pr.truth n) (m : K) :
    processData lib pr frame (firstSamples n v) (some m) = processData lib pr frame v (some m) := by
  refine eq_of_rel ?_
  have h0 := initial hv n
  unfold processData
  have hsh : checkShape (firstSamples n v).has = checkShape v.has := by
    have : (firstSamples n v).has = v.has := funext fun k => h0.has k
    rw [this]
  rw [hsh, hf]
  refine PyRel.bind (PyRel.same _) fun _ _ _ => ?_
  simp only [Bool.false_eq_true, if_false, pure_eq_ok, ok_bind]
  cases ht : v.get? "t" with
  | none =>
    have h1 : v.has "t" = false := (has_false_iff _ _).mpr ht
    have e : ∀ w : DataV K C, w.has "t" = false → newData lib w = .error .exception := by
      intro w hw
      unfold newData
      rw [if_neg (by rw [hw]; decide)]
    rw [e v h1, e _ ((h0.has "t").trans h1)]
    exact .error _
  | some e =>
    obtain ⟨t, rfl, htL⟩ := hv.times _ ht
    have hL : n ≤ L := htL ▸ (ho.increasing t (array_of ht)).1
    refine PyRel.bind_of (newData_take hl ho.enough hL h0) fun nd nd' hnd _ hF => ?_
    refine PyRel.bind_of (analyse_take hl hpi hL hv ho hnd hF (some m)) fun an an' han _ hh => ?_
    obtain ⟨rfl, hcut⟩ := hh
    obtain ⟨idx, hidx⟩ : ∃ idx, an'.cut = some idx := by
      unfold analyse at han
      obtain ⟨_, _, han⟩ := bind_ok han
      obtain ⟨_, _, han⟩ := bind_ok han
      obtain ⟨_, _, han⟩ := bind_ok han
      obtain ⟨⟨_, _⟩, _, han⟩ := bind_ok han
      obtain ⟨_, _, han⟩ := bind_ok han
      obtain ⟨⟨_, _, _⟩, _, han⟩ := bind_ok han
      obtain ⟨_, _, han⟩ := bind_ok han
      obtain ⟨_, _, han⟩ := bind_ok han
      obtain ⟨_, _, han⟩ := bind_ok han
      obtain ⟨_, _, han⟩ := bind_ok han
      split at han
      · cases han
      split at han
      · cases han
      obtain ⟨_, _, han⟩ := bind_ok han
      dsimp only at han
      split at han
      · cases han
      obtain ⟨idx, _, han⟩ := bind_ok han
      cases han
      exact ⟨idx, rfl⟩
    rw [hidx]
    dsimp only
    refine PyRel.bind (cutData_take (hcut idx hidx) hF (newData_nodup hnd)) fun x _ e => ?_
    subst e
    exact .ok rfl

theorem firstSamples_keys (n : ℕ) (v : DataV K C) : (firstSamples n v).keys = v.keys := by
  unfold firstSamples Dict.keys
  rw [List.map_map]
  rfl

theorem run_take (fuel : ℕ) {lib : Libs K C} (hl : SampleBySample lib.wave) (hpi : 0 < lib.wave.pi) {n L : ℕ} {a : Call K C}
    (hv : Regular lib.wave a.dataDict L) (hf : mustTransform a.precessing a.frame = false)
    (ho : OverBy lib.wave a.dataDict a.precessing.truth n) {m : K} (hm : a.numOrbits = some m) :
    run fuel lib { a with dataDict := firstSamples n a.dataDict } = run fuel lib a := by
  have h1 : loadWave lib { a with dataDict := firstSamples n a.dataDict } = loadWave lib a := by
    unfold loadWave
    dsimp only
    rw [frameMessage_off _ hf, frameMessage_off _ hf, hm, processData_take hl hpi hv hf ho m]
  have h2 : ∀ c domain ref, construct fuel lib c domain ref { a with dataDict := firstSamples n a.dataDict }
      = construct fuel lib c domain ref a := by
    intro c domain ref
    unfold construct
    rw [h1]
    cases loadWave lib a with
    | error e => rfl
    | ok q =>
      obtain ⟨nd, an, w⟩ := q
      dsimp only
      have h3 : filterStage fuel lib { a with dataDict := firstSamples n a.dataDict } nd an w = filterStage fuel lib a nd an w := rfl
      have h4 : ∀ w filtered extra, finish lib c domain ref { a with dataDict := firstSamples n a.dataDict } nd an w filtered extra
          = finish lib c domain ref a nd an w filtered extra := by
        intro w filtered extra
        unfold finish
        dsimp only
        rw [firstSamples_keys]
      rw [h3]
      simp only [h4]
  unfold run
  have h5 : dispatch { a with dataDict := firstSamples n a.dataDict } = dispatch a := rfl
  rw [h5]
  cases dispatch a with
  | error e => rfl
  | ok q =>
    obtain ⟨c, domain, ref⟩ := q
    dsimp only
    rw [h2]

end

end Longer

end GwEcc
