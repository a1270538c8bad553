import Verif.Spec.Fits
import Verif.Lemmas.Segment
import Verif.Props.Residual

/-! # Lemmas: extrema search by fits -/

set_option linter.unusedSectionVars false

namespace GwEcc

open Spec

section near
variable {K : Type} [Field K] [LinearOrder K]
variable {lib : FitsLib K} {cfg : FitsCfg K} {d : FitsData K} {t0 sign tol : K} {bounds : Trend K × Trend K}
  {nBefore nAfter : ℕ} {distance : ℤ} {prominence : K}

theorem ite_cases {α : Type} {c : Prop} [Decidable c] {a b x : α} (h : (if c then a else b) = x) : a = x ∨ b = x := by
  split at h
  · exact .inl h
  · exact .inr h

theorem mid_ge {idx : List ℕ} (hs : idx.Pairwise (· < ·)) {i j a b : ℕ} (ha : idx[i]? = some a) (hb : idx[j]? = some b)
    (hij : i < j) : a < b := by
  obtain ⟨h1, rfl⟩ := List.getElem?_eq_some_iff.mp ha
  obtain ⟨h2, rfl⟩ := List.getElem?_eq_some_iff.mp hb
  exact List.pairwise_iff_getElem.mp hs i j h1 h2 hij

theorem mid_ge' {idx : List ℕ} (hs : idx.Pairwise (fun a b => a + 1 < b)) {i j a b : ℕ} (ha : idx[i]? = some a)
    (hb : idx[j]? = some b) (hij : i < j) : a + 1 < b := by
  obtain ⟨h1, rfl⟩ := List.getElem?_eq_some_iff.mp ha
  obtain ⟨h2, rfl⟩ := List.getElem?_eq_some_iff.mp hb
  exact List.pairwise_iff_getElem.mp hs i j h1 h2 hij

theorem adjustLo_ref {idx : List ℕ} (hs : idx.Pairwise (· < ·)) {nLeft nRight : ℕ} {adv : K} {lo ref lo' ref' nR : ℕ}
    (h : adjustLo lib d idx nBefore nLeft nRight adv lo ref = .ok (lo', ref', nR))
    (hnr : nRight = (idx.filter (· ≥ ref)).length) : ref ≤ ref' := by
  unfold adjustLo at h
  split at h
  · obtain ⟨a, _, h⟩ := bind_ok h
    obtain ⟨b, _, h⟩ := bind_ok h
    cases h; exact le_refl _
  split at h
  · split at h
    · split at h
      · rename_i hr2
        obtain ⟨a, ha, h⟩ := bind_ok h
        obtain ⟨b, hb, h⟩ := bind_ok h
        obtain ⟨_, h1⟩ := Prod.mk.inj (Except.ok.inj h)
        obtain ⟨h1, _⟩ := Prod.mk.inj h1
        have ha := pyGet_getElem? ha
        have hb := pyGet_getElem? hb
        have hlt := mid_ge hs ha hb (Nat.lt_succ_self _)
        have hge : ref ≤ a := by
          cases hw : npWhere (fun i => decide (i ≥ ref)) idx with
          | nil =>
            exfalso
            have hnil := npWhere_nil hw
            have : idx.filter (· ≥ ref) = [] := by
              rw [List.filter_eq_nil_iff]
              intro x hx
              obtain ⟨k, hk, rfl⟩ := List.getElem_of_mem hx
              simpa using hnil k hk
            rw [this] at hnr
            simp at hnr
            omega
          | cons i is =>
            obtain ⟨⟨hi, hp⟩, _⟩ := npWhere_head hw
            rw [hw] at ha
            simp only [List.headD_cons] at ha
            rw [List.getElem?_eq_getElem hi] at ha
            cases ha
            simpa using hp
        omega
      · cases h; exact le_refl _
    · obtain ⟨a, _, h⟩ := bind_ok h
      obtain ⟨b, _, h⟩ := bind_ok h
      cases h; exact le_refl _
  · cases h; exact le_refl _

theorem adjust_ok {idx : List ℕ} (hs : idx.Pairwise (· < ·)) {nLeft nRight : ℕ} {adv : K} {s s' : NearState K} {nR : ℕ}
    {b : Bool} (h : adjust lib d idx nBefore nAfter nLeft nRight adv s = .ok (s', nR, b))
    (hnr : nRight = (idx.filter (· ≥ s.ref)).length) : s.ref ≤ s'.ref ∧ s'.it = s.it ∧ s'.p = s.p := by
  unfold adjust at h
  split at h
  · obtain ⟨⟨lo, ref, nr⟩, h1, h⟩ := bind_ok h
    have := adjustLo_ref hs h1 hnr
    dsimp only at h
    obtain ⟨hi, _, h⟩ := bind_ok h
    split at h <;> cases h <;> exact ⟨this, rfl, rfl⟩
  · cases h; exact ⟨le_refl _, rfl, rfl⟩

theorem adjust_it {idx : List ℕ} {nLeft nRight : ℕ} {adv : K} {s s' : NearState K} {nR : ℕ}
    {b : Bool} (h : adjust lib d idx nBefore nAfter nLeft nRight adv s = .ok (s', nR, b)) : s'.it = s.it := by
  unfold adjust at h
  split at h
  · obtain ⟨⟨lo, ref, nr⟩, h1, h⟩ := bind_ok h
    dsimp only at h
    obtain ⟨hi, _, h⟩ := bind_ok h
    split at h <;> cases h <;> rfl
  · cases h; rfl

/-- The local search continues at most 20 times. -/
theorem nearBody_it {s s' : NearState K}
    (h : nearBody lib cfg d t0 sign tol bounds nBefore nAfter distance prominence s = .ok (.inl s')) :
    s'.it = s.it + 1 ∧ s.it < 20 := by
  unfold nearBody at h
  dsimp only at h
  obtain ⟨r, _, h⟩ := bind_ok h
  obtain ⟨_, _, h⟩ := bind_ok h
  obtain ⟨peaks, _, h⟩ := bind_ok h
  obtain ⟨raw, _, h⟩ := bind_ok h
  obtain ⟨info, _, h⟩ := bind_ok h
  split at h
  · cases h
  rename_i hit
  push Not at hit
  obtain ⟨⟨s1, nR, again⟩, h1, h⟩ := bind_ok h
  have hi := adjust_it h1
  dsimp only at h hi
  by_cases ha : again = true
  · rw [if_pos ha] at h; cases h; exact ⟨hi, by omega⟩
  · rw [if_neg ha] at h
    rcases ite_cases h with hcond | hcond
    rotate_left
    · obtain ⟨p, _, h⟩ := bind_ok hcond
      cases h
      exact ⟨hi, by omega⟩
    · cases hcond

/-- What the local search returns. -/
structure NearGood (lib : FitsLib K) (cfg : FitsCfg K) (d : FitsData K) (t0 sign : K) (ref : ℕ) (r : Near K) : Prop where
  extremum : ∀ i ∈ r.idx, IsExtremum lib d sign i
  sorted : r.idx.Pairwise (· < ·)
  inside : ∀ i ∈ r.idx, i < d.data.length
  ref : ref ≤ r.ref
  length : r.info.length = r.idx.length
  values : cfg.refine = false → ∀ (k i : ℕ) (x : K × K × K), r.idx[k]? = some i → r.info[k]? = some x →
    d.t[i]? = some x.1 ∧ d.data[i]? = some x.2.1 ∧ d.phase[i]? = some x.2.2
  separate : Separates lib.findPeaks → r.idx.Pairwise (fun a b => a + 1 < b)

theorem extremaInfo_ok {p : Trend K} {idx : List ℕ} {info : List (K × K × K)}
    (h : extremaInfo lib cfg d t0 p idx = .ok info) : info.length = idx.length ∧
      (cfg.refine = false → ∀ (k : ℕ) (i : ℕ) (x : K × K × K), idx[k]? = some i → info[k]? = some x →
        d.t[i]? = some x.1 ∧ d.data[i]? = some x.2.1 ∧ d.phase[i]? = some x.2.2) := by
  unfold extremaInfo at h
  obtain ⟨raw, h1, h⟩ := bind_ok h
  obtain ⟨l1, g1⟩ := mapM_getElem? h1
  split at h
  · rename_i hr
    obtain ⟨l2, _⟩ := mapM_getElem? h
    exact ⟨by omega, fun hf => by rw [hf] at hr; cases hr⟩
  · cases h
    refine ⟨l1, fun _ k i x hi hx => ?_⟩
    obtain ⟨y, hy, hy'⟩ := g1 k i hi
    rw [hx] at hy'
    cases hy'
    obtain ⟨a, ha, hy⟩ := bind_ok hy
    obtain ⟨b, hb, hy⟩ := bind_ok hy
    obtain ⟨c, hc, hy⟩ := bind_ok hy
    cases hy
    exact ⟨pyGet_getElem? ha, pyGet_getElem? hb, pyGet_getElem? hc⟩

theorem residual_length {p : Trend K} {lo hi : ℕ} {r : List K} (h : residual lib d t0 p lo hi = .ok r) :
    r.length + lo ≤ d.data.length ∨ r = [] := by
  unfold residual at h
  obtain ⟨f, _, h⟩ := bind_ok h
  unfold npZip at h
  split at h
  · rename_i hl
    cases h
    have h1 : (List.zipWith (fun x1 x2 => x1 - x2) (cut d.data lo hi) f).length = (cut d.data lo hi).length := by
      simp [hl]
    have h2 : (cut d.data lo hi).length = min hi d.data.length - lo := by unfold cut; simp
    rcases Nat.lt_or_ge lo d.data.length with q | q
    · left; omega
    · right
      rw [← List.length_eq_zero_iff]
      omega
  · cases h

theorem nearBody_ok (hp : FindsPeaks lib.findPeaks) {s : NearState K} {x : NearState K ⊕ Near K}
    (h : nearBody lib cfg d t0 sign tol bounds nBefore nAfter distance prominence s = .ok x) :
    match x with
    | .inl s' => s.ref ≤ s'.ref
    | .inr r => NearGood lib cfg d t0 sign s.ref r := by
  unfold nearBody at h
  dsimp only at h
  obtain ⟨r, hr, h⟩ := bind_ok h
  obtain ⟨_, _, h⟩ := bind_ok h
  obtain ⟨peaks, hpk, h⟩ := bind_ok h
  obtain ⟨raw, _, h⟩ := bind_ok h
  obtain ⟨info, hinfo, h⟩ := bind_ok h
  obtain ⟨hsort, hin⟩ := hp _ _ _ _ hpk
  have hsorted : (peaks.map (· + s.lo)).Pairwise (· < ·) := by
    rw [List.pairwise_map]
    exact hsort.imp fun {a b} hab => by omega
  obtain ⟨hlen, hval⟩ := extremaInfo_ok hinfo
  have good : ∀ (p : Trend K) (adv : K) (ref : ℕ), s.ref ≤ ref →
      NearGood lib cfg d t0 sign s.ref ⟨peaks.map (· + s.lo), p, adv, ref, info⟩ := by
    intro p adv ref href
    refine ⟨?_, hsorted, ?_, href, hlen, hval, ?_⟩
    · intro i hi
      obtain ⟨k, hk, rfl⟩ := List.mem_map.mp hi
      exact ⟨t0, s.p, s.lo, s.hi, r, distance, prominence, peaks, hr, hpk, by omega, by
        rw [Nat.add_sub_cancel]; exact hk⟩
    · intro i hi
      obtain ⟨k, hk, rfl⟩ := List.mem_map.mp hi
      have h1 := hin k hk
      rw [List.length_map] at h1
      rcases residual_length hr with q | q
      · omega
      · rw [q] at h1; simp at h1
    · intro hsep
      rw [List.pairwise_map]
      exact (hsep _ _ _ _ hpk).imp fun {a b} hab => by omega
  split at h
  · cases h
    exact good _ _ _ (le_refl _)
  obtain ⟨⟨s1, nR, again⟩, h1, h⟩ := bind_ok h
  obtain ⟨e1, e2, e3⟩ := adjust_ok hsorted h1 rfl
  dsimp only at h e1
  by_cases ha : again = true
  · rw [if_pos ha] at h; cases h; exact e1
  · rw [if_neg ha] at h
    rcases ite_cases h with hcond | hcond
    rotate_left
    · obtain ⟨p, _, h⟩ := bind_ok hcond
      cases h
      exact e1
    · cases hcond
      exact good _ _ _ e1

theorem findNear_terminates [FloorRing K] (fuel : ℕ) (hf : 21 < fuel) (ref : ℕ) (adv : K) (p : Trend K) :
    ∃ r, findNear fuel lib cfg d t0 sign tol bounds nBefore nAfter ref adv p = some r := by
  unfold findNear
  dsimp only
  split
  · exact ⟨_, rfl⟩
  · rename_i s distance prominence hs
    have hit : s.it = 0 := by
      obtain ⟨ph, _, hs⟩ := bind_ok hs
      obtain ⟨lo, _, hs⟩ := bind_ok hs
      obtain ⟨hh, _, hs⟩ := bind_ok hs
      obtain ⟨⟨dd, pp⟩, _, hs⟩ := bind_ok hs
      cases hs; rfl
    refine runLoop_term (fun s => s.it ≤ 20) (fun s => 20 - s.it) ?_ (by omega) (by omega)
    intro s s' _ h
    unfold nearStep at h
    split at h
    · cases h
    · rename_i s'' hb
      cases h
      obtain ⟨q1, q2⟩ := nearBody_it hb
      omega
    · cases h

theorem findNear_ok [FloorRing K] (hp : FindsPeaks lib.findPeaks) {fuel ref : ℕ} {adv : K} {p : Trend K} {r : Near K}
    (h : findNear fuel lib cfg d t0 sign tol bounds nBefore nAfter ref adv p = some (.ok r)) :
    NearGood lib cfg d t0 sign ref r := by
  unfold findNear at h
  dsimp only at h
  split at h
  · cases h
  · rename_i s distance prominence hs
    have hit : s.ref = ref := by
      obtain ⟨ph, _, hs⟩ := bind_ok hs
      obtain ⟨lo, _, hs⟩ := bind_ok hs
      obtain ⟨hh, _, hs⟩ := bind_ok hs
      obtain ⟨⟨dd, pp⟩, _, hs⟩ := bind_ok hs
      cases hs; rfl
    refine runLoop_inv (fun s => ref ≤ s.ref) (fun r => ∀ x, r = .ok x → NearGood lib cfg d t0 sign ref x) ?_ ?_
      (by omega) h r rfl
    · intro s s' hI h
      unfold nearStep at h
      split at h
      · cases h
      · rename_i s'' hb
        cases h
        exact le_trans hI (nearBody_ok hp hb)
      · cases h
    · intro s r hI h x hx
      subst hx
      unfold nearStep at h
      split at h
      · cases h
      · cases h
      · rename_i r' hb
        cases h
        have := nearBody_ok hp hb
        exact { this with ref := le_trans hI this.ref }

/-- A report of extrema: increasing, each found by the peak finder inside the data, with one entry of information per extremum. -/
structure Good (lib : FitsLib K) (cfg : FitsCfg K) (d : FitsData K) (sign : K) (l : List ℕ) (info : List (K × K × K)) :
    Prop where
  extremum : ∀ i ∈ l, IsExtremum lib d sign i
  sorted : l.Pairwise (· < ·)
  inside : ∀ i ∈ l, i < d.data.length
  length : info.length = l.length
  values : cfg.refine = false → ∀ q ∈ l.zip info, d.t[q.1]? = some q.2.1 ∧ d.data[q.1]? = some q.2.2.1 ∧
    d.phase[q.1]? = some q.2.2.2

theorem Good.nil : Good lib cfg d sign [] [] := ⟨by simp, by simp, by simp, rfl, by simp⟩

theorem NearGood.good {ref : ℕ} {r : Near K} (h : NearGood lib cfg d t0 sign ref r) : Good lib cfg d sign r.idx r.info := by
  refine ⟨h.extremum, h.sorted, h.inside, h.length, fun hr q hq => ?_⟩
  obtain ⟨k, hk⟩ := List.getElem?_of_mem hq
  obtain ⟨h1, h2⟩ := List.getElem?_zip_eq_some.mp hk
  exact h.values hr k q.1 q.2 h1 h2

theorem Good.append {l l' : List ℕ} {i i' : List (K × K × K)} (h : Good lib cfg d sign l i) (h' : Good lib cfg d sign l' i')
    (hlt : ∀ x ∈ l, ∀ y ∈ l', x < y) : Good lib cfg d sign (l ++ l') (i ++ i') := by
  refine ⟨?_, List.pairwise_append.mpr ⟨h.sorted, h'.sorted, hlt⟩, ?_, by simp [h.length, h'.length], ?_⟩
  · intro x hx
    rcases List.mem_append.mp hx with q | q
    · exact h.extremum x q
    · exact h'.extremum x q
  · intro x hx
    rcases List.mem_append.mp hx with q | q
    · exact h.inside x q
    · exact h'.inside x q
  · intro hr q hq
    rw [List.zip_append h.length.symm] at hq
    rcases List.mem_append.mp hq with q' | q'
    · exact h.values hr q q'
    · exact h'.values hr q q'

theorem Good.sub {l l' : List ℕ} {i i' : List (K × K × K)} (h : Good lib cfg d sign l i) (hz : (l'.zip i').Sublist (l.zip i))
    (hl : i'.length = l'.length) : Good lib cfg d sign l' i' := by
  have e : ∀ {l' : List ℕ} {i' : List (K × K × K)}, i'.length = l'.length → l' = (l'.zip i').map Prod.fst := by
    intro l' i' h
    rw [List.map_fst_zip (le_of_eq h.symm)]
  have hs : l'.Sublist l := by
    rw [e hl, e h.length]
    exact hz.map _
  exact ⟨fun x hx => h.extremum x (hs.subset hx), h.sorted.sublist hs, fun x hx => h.inside x (hs.subset hx), hl,
    fun hr q hq => h.values hr q (hz.subset hq)⟩

theorem take_zip' {α β : Type} (l : List α) (l' : List β) (n : ℕ) : (l.zip l').take n = (l.take n).zip (l'.take n) :=
  List.take_zipWith

theorem drop_zip' {α β : Type} (l : List α) (l' : List β) (n : ℕ) : (l.zip l').drop n = (l.drop n).zip (l'.drop n) :=
  List.drop_zipWith

theorem Good.take {l : List ℕ} {i : List (K × K × K)} (h : Good lib cfg d sign l i) (n : ℕ) :
    Good lib cfg d sign (l.take n) (i.take n) := by
  refine h.sub ?_ (by simp [h.length])
  rw [← take_zip']
  exact List.take_sublist _ _

theorem Good.drop {l : List ℕ} {i : List (K × K × K)} (h : Good lib cfg d sign l i) (n : ℕ) :
    Good lib cfg d sign (l.drop n) (i.drop n) := by
  refine h.sub ?_ (by simp [h.length])
  rw [← drop_zip']
  exact List.drop_sublist _ _

theorem Good.single {l : List ℕ} {i : List (K × K × K)} (h : Good lib cfg d sign l i) {n x : ℕ} {y : K × K × K}
    (hx : l[n]? = some x) (hy : i[n]? = some y) : Good lib cfg d sign [x] [y] := by
  refine h.sub ?_ rfl
  simp only [List.zip_cons_cons, List.zip_nil_right, List.singleton_sublist]
  exact List.mem_of_getElem? (List.getElem?_zip_eq_some.mpr ⟨hx, hy⟩)

theorem Good.filter {l : List ℕ} {i : List (K × K × K)} (h : Good lib cfg d sign l i) (p : ℕ × K × K × K → Bool) :
    Good lib cfg d sign (((l.zip i).filter p).map Prod.fst) (((l.zip i).filter p).map Prod.snd) := by
  refine h.sub ?_ (by simp)
  have : (((l.zip i).filter p).map Prod.fst).zip (((l.zip i).filter p).map Prod.snd) = (l.zip i).filter p := by
    generalize (l.zip i).filter p = z
    induction z with
    | nil => rfl
    | cons a z ih => simp [ih]
  rw [this]
  exact List.filter_sublist

theorem mapM_range_take {α : Type} {l : List α} : ∀ {N : ℕ} {r : List α}, ((List.range N).mapM fun k => pyGet l k) = .ok r →
    r = l.take N := by
  intro N r h
  obtain ⟨h1, h2⟩ := mapM_getElem? h
  apply List.ext_getElem?
  intro k
  rw [List.getElem?_take]
  split
  · rename_i hk
    obtain ⟨y, hy, hr⟩ := h2 k k (by simp [hk])
    rw [hr, pyGet_getElem? hy]
  · rename_i hk
    rw [List.getElem?_eq_none]
    simp at h1
    omega

/-- Invariant of the loop of `find_extrema`. -/
structure FindInv (lib : FitsLib K) (cfg : FitsCfg K) (d : FitsData K) (sign : K) (s : FindState K) : Prop where
  good : Good lib cfg d sign s.extrema s.info
  extra : Good lib cfg d sign s.extra s.extraInfo
  lt : ∀ x ∈ s.extrema, ∀ y ∈ s.extra, x < y
  le : ∀ x ∈ s.extrema, x ≤ s.ref
  zero : s.count = 0 → s.extrema = [] ∧ s.extra = [] ∧ s.info = []

theorem report_count {N : ℕ} {r : Near K} {s s' : FindState K} {b : Bool} (h : report N r s = .ok (s', b)) :
    s'.count = s.count := by
  unfold report at h
  obtain ⟨term, _, h⟩ := bind_ok h
  split at h
  · obtain ⟨s1, h1, h⟩ := bind_ok h
    have e1 : s1.count = s.count := by
      split at h1
      · obtain ⟨_, _, h1⟩ := bind_ok h1
        obtain ⟨_, _, h1⟩ := bind_ok h1
        cases h1; rfl
      · cases h1; rfl
    obtain ⟨x, _, h⟩ := bind_ok h
    obtain ⟨s2, h2, h⟩ := bind_ok h
    have e2 : s2.count = s1.count := by
      split at h2
      · obtain ⟨_, _, h2⟩ := bind_ok h2
        cases h2; rfl
      · cases h2; rfl
    split at h <;> (cases h; simp [e1, e2])
  · cases h; rfl

theorem report_ok {s : FindState K} {r : Near K} {s' : FindState K} {b : Bool} (hc : s.count ≠ 0)
    (hI : FindInv lib cfg d sign { s with count := s.count - 1 }) (hr : NearGood lib cfg d t0 sign s.ref r)
    (h : report cfg.N r s = .ok (s', b)) :
    Good lib cfg d sign s'.extrema s'.info ∧ (b = false → Good lib cfg d sign s'.extra s'.extraInfo ∧
      (∀ x ∈ s'.extrema, ∀ y ∈ s'.extra, x < y) ∧
      ∀ a, r.idx[cfg.N]? = some a → (∀ x ∈ s'.extrema, x ≤ a) ∧ r.ref ≤ a) := by
  have hg := hr.good
  unfold report at h
  obtain ⟨term, ht, h⟩ := bind_ok h
  split at h
  · obtain ⟨s1, h1, h⟩ := bind_ok h
    obtain ⟨x, hx, h⟩ := bind_ok h
    have hx := pyGet_getElem? hx
    -- extrema reported before the current one
    have e1 : Good lib cfg d sign s1.extrema s1.info ∧ (∀ y ∈ s1.extrema, y ≤ r.ref ∨ y < x) ∧
        Good lib cfg d sign s1.extra s1.extraInfo ∧ (∀ a ∈ s1.extrema, ∀ b ∈ s1.extra, a < b) := by
      split at h1
      · rename_i hc1
        obtain ⟨f, hf, h1⟩ := bind_ok h1
        obtain ⟨fi, hfi, h1⟩ := bind_ok h1
        have hf := mapM_range_take hf
        have hfi := mapM_range_take hfi
        obtain ⟨z1, z2, z3⟩ := hI.zero (by show s.count - 1 = 0; omega)
        dsimp only at z1 z2 z3
        cases h1
        dsimp only
        rw [z1, z2, z3, hf, hfi]
        refine ⟨hg.take _, ?_, ?_, by simp⟩
        · intro y hy
          right
          rw [List.nil_append] at hy
          obtain ⟨k, hk⟩ := List.getElem?_of_mem hy
          rw [List.getElem?_take] at hk
          split at hk
          · exact mid_ge hg.sorted hk hx (by assumption)
          · cases hk
        · have := hI.extra
          dsimp only at this
          rwa [z2] at this
      · cases h1
        exact ⟨hI.good, fun y hy => .inl (le_trans (hI.le y hy) hr.ref), hI.extra, hI.lt⟩
    obtain ⟨g1, b1, x1, l1⟩ := e1
    obtain ⟨s2, h2, h⟩ := bind_ok h
    have hdrop : ∀ y ∈ r.idx.drop (cfg.N + 1), x < y := by
      intro y hy
      obtain ⟨k, hk⟩ := List.getElem?_of_mem hy
      rw [List.getElem?_drop] at hk
      exact mid_ge hg.sorted hx hk (by omega)
    have e2 : Good lib cfg d sign s2.extrema s2.info ∧ (∀ y ∈ s2.extrema, y ≤ r.ref ∨ y ≤ x) ∧
        Good lib cfg d sign s2.extra s2.extraInfo ∧ (∀ a ∈ s2.extrema, ∀ b ∈ s2.extra, a < b) := by
      split at h2
      · rename_i hgt
        obtain ⟨i, hi, h2⟩ := bind_ok h2
        have hi := pyGet_getElem? hi
        cases h2
        dsimp only
        have hle : ∀ y ∈ s1.extrema, y < x := by
          intro y hy
          rcases b1 y hy with q | q <;> omega
        refine ⟨g1.append (hg.single hx hi) ?_, ?_, hg.drop _, ?_⟩
        · intro y hy z hz
          simp only [List.mem_singleton] at hz
          rw [hz]; exact hle y hy
        · intro y hy
          rcases List.mem_append.mp hy with q | q
          · exact .inr (le_of_lt (hle y q))
          · simp only [List.mem_singleton] at q
            exact .inr (le_of_eq q)
        · intro y hy z hz
          have := hdrop z hz
          rcases List.mem_append.mp hy with q | q
          · have := hle y q; omega
          · simp only [List.mem_singleton] at q
            omega
      · cases h2
        exact ⟨g1, fun y hy => (b1 y hy).imp_right le_of_lt, x1, l1⟩
    obtain ⟨g2, b2, x2, l2⟩ := e2
    split at h
    · cases h
      refine ⟨?_, by simp⟩
      dsimp only
      have hf : Good lib cfg d sign _ _ := (hg.drop (cfg.N + 1)).filter (fun q => decide (q.1 > r.ref))
      rw [← drop_zip'] at hf
      refine g2.append hf ?_
      intro y hy z hz
      obtain ⟨q, hq, rfl⟩ := List.mem_map.mp hz
      obtain ⟨hq1, hq2⟩ := List.mem_filter.mp hq
      rw [drop_zip'] at hq1
      have h3 := hdrop _ (List.of_mem_zip hq1).1
      simp only [decide_eq_true_eq] at hq2
      rcases b2 y hy with q | q <;> omega
    · rename_i hterm
      cases h
      refine ⟨g2, fun _ => ⟨x2, l2, ?_⟩⟩
      intro a ha
      rw [hx] at ha
      cases ha
      have hge : r.ref ≤ x := by
        split at ht
        · cases ht; simp at hterm
        · obtain ⟨x', hx', ht⟩ := bind_ok ht
          have hx' := pyGet_getElem? hx'
          rw [hx] at hx'
          cases hx'
          cases ht
          simpa using hterm
      refine ⟨fun y hy => ?_, hge⟩
      rcases b2 y hy with q | q <;> omega
  · rename_i hlen
    cases h
    refine ⟨hI.good.append hI.extra hI.lt, ?_⟩
    intro hb
    subst hb
    exfalso
    split at ht
    · cases ht
    · omega

theorem findBody_count {limit N : ℕ} {near : ℕ → K → Trend K → Option (Py (Near K))} {s s' : FindState K}
    (h : findBody limit near N s = .inl s') : s'.count = s.count + 1 ∧ s'.count ≤ limit := by
  unfold findBody at h
  dsimp only at h
  split at h
  · cases h
  · cases h
  · split at h
    · cases h
    · cases h
    · rename_i s1 hrep
      have := report_count hrep
      dsimp only at this
      split at h
      · split at h
        · cases h
        · cases h
          exact ⟨this, by dsimp only; omega⟩
      · cases h

/-- One pass: the invariant is kept, and the reference position does not decrease; it increases when peaks are not adjacent. -/
theorem findBody_inl {limit : ℕ} {near : ℕ → K → Trend K → Option (Py (Near K))} {s s' : FindState K}
    (hn : ∀ ref adv p r, near ref adv p = some (.ok r) → NearGood lib cfg d t0 sign ref r)
    (hI : FindInv lib cfg d sign s) (h : findBody limit near cfg.N s = .inl s') :
    FindInv lib cfg d sign s' ∧ s.ref ≤ s'.ref ∧ s'.ref < d.data.length ∧
      (Separates lib.findPeaks → s.ref < s'.ref) := by
  have hcount := findBody_count h
  unfold findBody at h
  dsimp only at h
  split at h
  · cases h
  · cases h
  · rename_i r hnear
    have hr := hn _ _ _ _ hnear
    split at h
    · cases h
    · cases h
    · rename_i s1 hrep
      have hI' : FindInv lib cfg d sign { ({ s with count := s.count + 1 } : FindState K) with
        count := ({ s with count := s.count + 1 } : FindState K).count - 1 } := hI
      obtain ⟨g, hb⟩ := report_ok (by show s.count + 1 ≠ 0; omega) hI' hr hrep
      obtain ⟨g', hlt, hle⟩ := hb rfl
      split at h
      · rename_i a b ha hb'
        have ha := pyGet_getElem? ha
        have hb' := pyGet_getElem? hb'
        obtain ⟨hle1, hle2⟩ := hle a ha
        have hab := mid_ge hr.sorted ha hb' (by omega)
        have hbin := hr.inside b (List.mem_of_getElem? hb')
        have href := hr.ref
        split at h
        · cases h
        · cases h
          dsimp only at href ⊢ hcount
          refine ⟨⟨g, g', hlt, fun x hx => ?_, fun h0 => by dsimp only at h0; omega⟩, by omega, by omega, ?_⟩
          · have := hle1 x hx
            show x ≤ (a + b) / 2
            omega
          · intro hsep
            have h3 := mid_ge' (hr.separate hsep) ha hb' (by omega)
            omega
      · cases h

theorem findBody_inr {limit : ℕ} {near : ℕ → K → Trend K → Option (Py (Near K))} {s : FindState K} {f : Found K}
    (hn : ∀ ref adv p r, near ref adv p = some (.ok r) → NearGood lib cfg d t0 sign ref r)
    (hI : FindInv lib cfg d sign s) (h : findBody limit near cfg.N s = .inr (some (.ok f))) :
    Good lib cfg d sign f.extrema f.info := by
  unfold findBody at h
  dsimp only at h
  split at h
  · cases h
  · cases h
  · rename_i r hnear
    have hr := hn _ _ _ _ hnear
    split at h
    · cases h
    · rename_i s1 hrep
      cases h
      have hI' : FindInv lib cfg d sign { ({ s with count := s.count + 1 } : FindState K) with
        count := ({ s with count := s.count + 1 } : FindState K).count - 1 } := hI
      exact (report_ok (by show s.count + 1 ≠ 0; omega) hI' hr hrep).1
    · split at h
      · split at h <;> cases h
      · cases h

end near

end GwEcc
