import Verif.Props.SpinDecision
import Verif.Lemmas.Measure
import Verif.Props.Residual

/-!
# C96: what the check for spin-induced oscillations computes, and which samples a segment has
-/

set_option linter.unusedSectionVars false

namespace GwEcc.Spec

open GwEcc.Filter

variable {K : Type} [Field K] [LinearOrder K]

/-- Without precession this is the (2, 2) mode's value again: the amplitude of the (2, -2) mode, and minus its frequency. -/
def partner : Kind → List K → List K
  | .amp, y => y
  | .omega, y => y.map fun b => -b

/-- Between samples `i` and `i + 1` the curve `x` gets above, below or onto the curve `y`. -/
def CrossesAt (x y : List K) (i : ℕ) : Prop :=
  ∃ a b a' b', x[i]? = some a ∧ y[i]? = some b ∧ x[i + 1]? = some a' ∧ y[i + 1]? = some b' ∧
    ¬ ((a < b ↔ a' < b') ∧ (b < a ↔ b' < a'))

/-- The times of all crossings, in order. -/
def IsCrossings (t x y tc : List K) : Prop :=
  ∃ idx : List ℕ, idx.Pairwise (· < ·) ∧ (∀ i, i ∈ idx ↔ CrossesAt x y i) ∧ tc.length = idx.length ∧
    ∀ n i : ℕ, idx[n]? = some i → ∃ a, t[i]? = some a ∧ tc[n]? = some a

/-- The mean of the values at some samples. -/
def averageAt (l : List K) (idx : List ℕ) : Option K :=
  if idx = [] then none else some ((idx.map fun (i : ℕ) => l.getD i 0).sum / idx.length)

end GwEcc.Spec

namespace GwEcc.Filter

open GwEcc.Spec

section
variable {K : Type} [Field K] [LinearOrder K] [IsStrictOrderedRing K] [FloorRing K]

theorem diff_getElem? {M : Type} [Sub M] : ∀ (l : List M) (i : ℕ) (d : M), (diff l)[i]? = some d ↔
    ∃ a b, l[i]? = some a ∧ l[i + 1]? = some b ∧ d = b - a
  | [], i, d => by simp [diff]
  | [a], i, d => by
    constructor
    · intro h; simp [diff] at h
    · rintro ⟨x, y, h1, h2, -⟩
      simp at h2
  | a :: b :: l, 0, d => by
    simp [diff, eq_comm]
  | a :: b :: l, i + 1, d => by
    rw [show (diff (a :: b :: l))[i + 1]? = (diff (b :: l))[i]? from rfl, diff_getElem? (b :: l) i d]
    rfl

theorem sgn_eq_iff {a b a' b' : K} : sgn (a - b) = sgn (a' - b') ↔ ((a < b ↔ a' < b') ∧ (b < a ↔ b' < a')) := by
  unfold sgn
  rcases lt_trichotomy a b with h | h | h <;> rcases lt_trichotomy a' b' with h' | h' | h' <;>
    simp [sub_neg, h, h', not_lt_of_gt, ne_of_gt, ne_of_lt]

/-- The samples `intersections` selects. -/
theorem mem_changes {x y : List K} (i : ℕ) :
    i ∈ npWhere (fun s : ℤ => decide (s ≠ 0)) (diff ((List.zipWith (· - ·) x y).map sgn)) ↔ CrossesAt x y i := by
  rw [mem_npWhere]
  have key : (∃ d, (diff ((List.zipWith (· - ·) x y).map sgn))[i]? = some d ∧ d ≠ 0) ↔ CrossesAt x y i := by
    constructor
    · rintro ⟨d, hd, hne⟩
      obtain ⟨p, q, hp, hq, rfl⟩ := (diff_getElem? _ _ _).mp hd
      rw [List.getElem?_map, List.getElem?_zipWith] at hp hq
      cases ha : x[i]? with
      | none => simp [ha] at hp
      | some a =>
        cases hb : y[i]? with
        | none => simp [ha, hb] at hp
        | some b =>
          cases ha' : x[i + 1]? with
          | none => simp [ha'] at hq
          | some a' =>
            cases hb' : y[i + 1]? with
            | none => simp [ha', hb'] at hq
            | some b' =>
              rw [ha, hb] at hp
              rw [ha', hb'] at hq
              cases hp
              cases hq
              refine ⟨a, b, a', b', ha, hb, ha', hb', fun h => hne ?_⟩
              rw [sgn_eq_iff.mpr h]
              simp
    · rintro ⟨a, b, a', b', ha, hb, ha', hb', hne⟩
      refine ⟨sgn (a' - b') - sgn (a - b), (diff_getElem? _ _ _).mpr ⟨sgn (a - b), sgn (a' - b'), ?_, ?_, rfl⟩, fun h => hne ?_⟩
      · rw [List.getElem?_map, List.getElem?_zipWith, ha, hb]; rfl
      · rw [List.getElem?_map, List.getElem?_zipWith, ha', hb']; rfl
      · exact sgn_eq_iff.mp (sub_eq_zero.mp h).symm
  rw [← key]
  constructor
  · rintro ⟨h, hp⟩
    exact ⟨_, List.getElem?_eq_getElem h, of_decide_eq_true hp⟩
  · rintro ⟨d, hd, hne⟩
    obtain ⟨h, rfl⟩ := List.getElem?_eq_some_iff.mp hd
    exact ⟨h, decide_eq_true hne⟩

/-- **C96.**  The crossings of two curves: the times of the samples before which and after which the curves are ordered
differently, all of them and in order, at least two; the intervals between them, and their midpoints. -/
theorem C96_crossings {t x y tc mid dT : List K} (h : intersections t x y = .ok (tc, mid, dT)) :
    x.length = y.length ∧ IsCrossings t x y tc ∧ 2 ≤ tc.length ∧ mid.length + 1 = tc.length ∧ dT.length + 1 = tc.length ∧
      ∀ (n : ℕ) (a b : K), tc[n]? = some a → tc[n + 1]? = some b → mid[n]? = some ((a + b) / 2) ∧ dT[n]? = some (b - a) := by
  unfold intersections npZip at h
  split at h
  case isFalse => cases h
  next hl =>
  rw [ok_bind] at h
  dsimp only at h
  split at h
  · cases h
  next h2 =>
  obtain ⟨tc', htc, h⟩ := bind_ok h
  have h := Except.ok.inj h
  simp only [Prod.mk.injEq] at h
  obtain ⟨rfl, rfl, rfl⟩ := h
  obtain ⟨g1, g2⟩ := mapM_getElem? htc
  have hdl : ∀ l : List K, 2 ≤ l.length → (diff l).length + 1 = l.length := by
    intro l hl
    have h1 : ∀ l : List K, (diff l).length = l.length - 1 := by
      intro l
      induction l with
      | nil => rfl
      | cons a l ih =>
        cases l with
        | nil => rfl
        | cons b l => simp only [diff, List.length_cons] at ih ⊢; omega
    rw [h1]; omega
  have h2' : 2 ≤ tc'.length := by omega
  refine ⟨hl, ⟨_, npWhere_sorted _ _, fun i => mem_changes i, g1, fun n i hi => ?_⟩, h2', ?_, hdl _ h2', fun n a b ha hb => ⟨?_, ?_⟩⟩
  · obtain ⟨a, ha, hn⟩ := g2 n i hi
    exact ⟨a, pyGet_getElem? ha, hn⟩
  · simp only [List.length_zipWith, List.length_dropLast, List.length_tail]
    omega
  · rw [List.getElem?_zipWith, List.getElem?_tail, hb]
    have : tc'.dropLast[n]? = some a := by
      obtain ⟨hlt, _⟩ := List.getElem?_eq_some_iff.mp hb
      rw [List.dropLast_eq_take, List.getElem?_take_of_lt (by omega), ha]
    rw [this]
    simp only [Option.some.injEq]
    ring
  · exact (diff_getElem? _ _ _).mpr ⟨a, b, ha, hb, rfl⟩

/-- **C96.**  Curves that do not cross twice are rejected. -/
theorem C96_few_crossings (t x y : List K) (h : ∀ i j, CrossesAt x y i → CrossesAt x y j → i = j) :
    intersections t x y = .error .valueError := by
  unfold intersections npZip
  split
  · rw [ok_bind]
    dsimp only
    rw [if_pos]
    by_contra hlen
    push Not at hlen
    have hs := npWhere_sorted (fun s : ℤ => decide (s ≠ 0)) (diff ((List.zipWith (· - ·) x y).map sgn))
    have hm : ∀ i, i ∈ npWhere (fun s : ℤ => decide (s ≠ 0)) (diff ((List.zipWith (· - ·) x y).map sgn)) → CrossesAt x y i :=
      fun i => (mem_changes i).mp
    generalize npWhere (fun s : ℤ => decide (s ≠ 0)) (diff ((List.zipWith (· - ·) x y).map sgn)) = l at hlen hs hm
    have h1 := List.pairwise_iff_getElem.mp hs 0 1 (by omega) (by omega) (by omega)
    have h2 := h _ _ (hm _ (List.getElem_mem (show 0 < l.length by omega))) (hm _ (List.getElem_mem (show 1 < l.length by omega)))
    omega
  · rfl

theorem mean?_at {l : List K} {idx : List ℕ} {v : List K} (h : (idx.mapM fun (i : ℕ) => pyGet l i) = .ok v) :
    mean? v = averageAt l idx := by
  obtain ⟨h1, h2⟩ := mapM_getElem? h
  have hv : v = idx.map fun (i : ℕ) => l.getD i 0 := by
    refine List.ext_getElem (by simp [h1]) fun n q1 q2 => ?_
    rw [List.length_map] at q2
    obtain ⟨a, ha, hn⟩ := h2 n _ (List.getElem?_eq_getElem q2)
    rw [List.getElem?_eq_getElem q1] at hn
    rw [Option.some.inj hn, List.getElem_map, List.getD_eq_getElem?_getD, pyGet_getElem? ha]
    rfl
  unfold mean? averageAt
  by_cases hi : idx = []
  · subst hi
    rw [hv]; rfl
  · rw [if_neg hi, if_neg (by rw [hv]; simpa using hi), h1, hv]

/-- **C96.**  The check: filtering is required if and only if the mean of the asymmetry of the modes at its peaks, divided by
the mean of the residual (the (2, 2) mode without its trend) at its peaks, is above the threshold.  The asymmetry is half
the difference between the value of the (2, 2) mode and what the (2, -2) mode has instead; peaks are searched for at a
distance of twice the last interval between crossings. -/
theorem C96_check {lib : FilterLib K} {thr tM : K} {kind : Kind} {t d22 d2m : List K} {b : Bool}
    (h : checkRequirement lib thr tM kind t d22 d2m = .ok b) :
    d22.length = d2m.length ∧ d22.length = t.length ∧ ∃ trend tc t0 t1 c0 c1 rp ap,
      lib.fit t d22 kind tM = .ok trend ∧ IsCrossings t d22 (partner kind d2m) tc ∧ 2 ≤ tc.length ∧
      t[0]? = some t0 ∧ t[1]? = some t1 ∧ tc[tc.length - 2]? = some c0 ∧ tc[tc.length - 1]? = some c1 ∧
      lib.peaks (List.zipWith (fun x s => x - trend s) d22 t) (pyInt (2 * (c1 - c0) / (t1 - t0))) = .ok rp ∧
      lib.peaks (List.zipWith (fun x y => (x - y) / 2) d22 (partner kind d2m)) (pyInt (2 * (c1 - c0) / (t1 - t0))) = .ok ap ∧
      (b = true ↔ ∃ ma mr, averageAt (List.zipWith (fun x y => (x - y) / 2) d22 (partner kind d2m)) ap = some ma ∧
        averageAt (List.zipWith (fun x s => x - trend s) d22 t) rp = some mr ∧
        (mr ≠ 0 ∧ thr < ma / mr ∨ mr = 0 ∧ 0 < ma)) := by
  unfold checkRequirement at h
  dsimp only at h
  obtain ⟨asym, h1, h⟩ := bind_ok h
  obtain ⟨trend, h2, h⟩ := bind_ok h
  obtain ⟨residual, h3, h⟩ := bind_ok h
  obtain ⟨⟨tc, mid, dT⟩, h4, h⟩ := bind_ok h
  dsimp only at h
  obtain ⟨last, h5, h⟩ := bind_ok h
  obtain ⟨t1, h6, h⟩ := bind_ok h
  obtain ⟨t0, h7, h⟩ := bind_ok h
  split at h
  · cases h
  obtain ⟨rp, h8, h⟩ := bind_ok h
  obtain ⟨ap, h9, h⟩ := bind_ok h
  obtain ⟨rv, h10, h⟩ := bind_ok h
  obtain ⟨av, h11, h⟩ := bind_ok h
  have z : ∀ {f : K → K → K} {p q r : List K}, npZip f p q = .ok r → p.length = q.length ∧ List.zipWith f p q = r := by
    intro f p q r hz
    unfold npZip at hz
    split at hz
    · next hl => exact ⟨hl, Except.ok.inj hz⟩
    · cases hz
  obtain ⟨l1, e1⟩ := z h1
  obtain ⟨l3, e3⟩ := z h3
  rw [List.length_map] at l3
  have hres : residual = List.zipWith (fun x s => x - trend s) d22 t := by
    rw [← e3, List.zipWith_map_right]
  have hasym : asym = List.zipWith (fun x y => (x - y) / 2) d22 (partner kind d2m) := by
    rw [← e1]
    cases kind with
    | amp =>
      unfold partner
      congr 1
      funext x y
      ring
    | omega =>
      unfold partner
      rw [List.zipWith_map_right]
      congr 1
      funext x y
      ring
  have h4 : intersections t d22 (partner kind d2m) = .ok (tc, mid, dT) := by
    rw [← h4]
    cases kind <;> simp [partner]
  obtain ⟨_, c2, c3, _, c5, c6⟩ := C96_crossings h4
  obtain ⟨hne, hlast⟩ := pyLast_ok' h5
  have hc0 : tc.length - 2 < tc.length := by omega
  have hc1 : tc.length - 2 + 1 < tc.length := by omega
  have hval := (c6 (tc.length - 2) _ _ (List.getElem?_eq_getElem hc0) (List.getElem?_eq_getElem hc1)).2
  rw [show dT.length - 1 = tc.length - 2 by omega, hval] at hlast
  rw [← Option.some.inj hlast] at h8 h9
  refine ⟨l1, l3, trend, tc, t0, t1, tc[tc.length - 2], tc[tc.length - 2 + 1], rp, ap, h2, c2, c3, pyGet_getElem? h7,
    pyGet_getElem? h6, List.getElem?_eq_getElem hc0, ?_, ?_, ?_, ?_⟩
  · rw [show tc.length - 1 = tc.length - 2 + 1 by omega]
    exact List.getElem?_eq_getElem hc1
  · rw [← hres]; exact h8
  · rw [← hasym]; exact h9
  · rw [← hasym, ← hres, ← mean?_at h10, ← mean?_at h11]
    cases hma : mean? av with
    | none =>
      rw [hma] at h
      have := Except.ok.inj h
      subst this
      simp
    | some ma =>
      cases hmr : mean? rv with
      | none =>
        rw [hma, hmr] at h
        have := Except.ok.inj h
        subst this
        simp
      | some mr =>
        rw [hma, hmr] at h
        have := Except.ok.inj h
        subst this
        unfold ratioAbove
        by_cases h0 : mr = 0
        · simp [h0]
        · simp [h0]

/-- **C96.**  A lower threshold requires filtering whenever a higher one does. -/
theorem C96_threshold {lib : FilterLib K} {thr thr' tM : K} {kind : Kind} {t d22 d2m : List K} (hle : thr' ≤ thr)
    (h : checkRequirement lib thr tM kind t d22 d2m = .ok true) : checkRequirement lib thr' tM kind t d22 d2m = .ok true := by
  unfold checkRequirement at h ⊢
  dsimp only at h ⊢
  obtain ⟨asym, h1, h⟩ := bind_ok h
  obtain ⟨trend, h2, h⟩ := bind_ok h
  obtain ⟨residual, h3, h⟩ := bind_ok h
  obtain ⟨⟨tc, mid, dT⟩, h4, h⟩ := bind_ok h
  dsimp only at h
  obtain ⟨last, h5, h⟩ := bind_ok h
  obtain ⟨t1, h6, h⟩ := bind_ok h
  obtain ⟨t0, h7, h⟩ := bind_ok h
  rw [h1, ok_bind, h2, ok_bind, h3, ok_bind, h4, ok_bind]
  dsimp only
  rw [h5, ok_bind, h6, ok_bind, h7, ok_bind]
  split at h
  · cases h
  next hne =>
  rw [if_neg hne]
  obtain ⟨rp, h8, h⟩ := bind_ok h
  obtain ⟨ap, h9, h⟩ := bind_ok h
  obtain ⟨rv, h10, h⟩ := bind_ok h
  obtain ⟨av, h11, h⟩ := bind_ok h
  rw [h8, ok_bind, h9, ok_bind, h10, ok_bind, h11, ok_bind]
  cases hma : mean? av with
  | none => rw [hma] at h; cases h
  | some ma =>
    cases hmr : mean? rv with
    | none => rw [hma, hmr] at h; cases h
    | some mr =>
      rw [hma, hmr] at h
      have h := Except.ok.inj h
      show Except.ok _ = Except.ok _
      congr 1
      unfold ratioAbove at h ⊢
      by_cases h0 : mr = 0
      · rw [if_pos h0] at h ⊢; exact h
      · rw [if_neg h0] at h ⊢
        exact decide_eq_true (lt_of_le_of_lt hle (of_decide_eq_true h))

theorem takeWhile_congr {α : Type} {p q : α → Bool} : ∀ {l : List α}, (∀ x ∈ l, p x = q x) → l.takeWhile p = l.takeWhile q
  | [], _ => rfl
  | a :: l, h => by
    rw [List.takeWhile_cons, List.takeWhile_cons, h a (List.mem_cons_self ..),
      takeWhile_congr fun x hx => h x (List.mem_cons_of_mem _ hx)]

theorem window_filter {α : Type} (l : List (K × α)) (lo hi : K) (hs : l.Pairwise fun a b => a.1 < b.1) :
    (l.take ((l.map Prod.fst).takeWhile fun x => decide (x ≤ hi)).length).drop
      ((l.map Prod.fst).takeWhile fun x => decide (x < lo)).length = l.filter fun q => decide (lo ≤ q.1 ∧ q.1 ≤ hi) := by
  induction l with
  | nil => rfl
  | cons a l ih =>
    obtain ⟨ha, hs⟩ := List.pairwise_cons.mp hs
    have ih := ih hs
    simp only [List.map_cons, List.takeWhile_cons, List.filter_cons]
    by_cases h1 : a.1 ≤ hi
    · by_cases h2 : a.1 < lo
      · rw [if_pos (decide_eq_true h1), if_pos (decide_eq_true h2), if_neg (by simp [not_le.mpr h2])]
        simpa using ih
      · push Not at h2
        rw [if_pos (decide_eq_true h1), if_neg (by simp [h2]), if_pos (by simp [h1, h2])]
        have : ((l.map Prod.fst).takeWhile fun x => decide (x < lo)).length = 0 := by
          cases l with
          | nil => rfl
          | cons b l =>
            have := ha b (List.mem_cons_self ..)
            rw [List.map_cons, List.takeWhile_cons, if_neg (by simp; linarith)]
            rfl
        rw [this] at ih
        simpa using ih
    · push Not at h1
      have g1 : ¬ decide (a.1 ≤ hi) = true := by simpa using h1
      have g2 : ¬ decide (lo ≤ a.1 ∧ a.1 ≤ hi) = true := by
        simp only [decide_eq_true_eq, not_and, not_le]
        exact fun _ => h1
      rw [if_neg g1, if_neg g2]
      simp only [List.length_nil, List.take_zero, List.drop_nil]
      symm
      rw [List.filter_eq_nil_iff]
      intro b hb
      have := ha b hb
      simp only [decide_eq_true_eq, not_and, not_le]
      intro _
      linarith

/-- **C96.**  The samples of a segment: those no further from its centre than half the segment size in units of the local
window length, each with its value. -/
theorem C96_segment {cfg : FilterCfg K} {o : FilterObj K} {c : K} {ts ds : List K} (hs : o.t.Pairwise (· < ·))
    (hl : o.data.length = o.t.length) (h : makeSegment cfg o c = .ok (ts, ds)) :
    ds.length = ts.length ∧ ts.zip ds = (o.t.zip o.data).filter fun q => decide (|q.1 - c| ≤ cfg.segmentSize / 2 * o.dT c) := by
  unfold makeSegment at h
  obtain ⟨first, h1, h⟩ := bind_ok h
  obtain ⟨last, h2, h⟩ := bind_ok h
  have h := Except.ok.inj h
  simp only [Prod.mk.injEq] at h
  obtain ⟨rfl, rfl⟩ := h
  obtain ⟨hf0, hf⟩ := pyGet_ok h1
  obtain ⟨hne, hlast⟩ := pyLast_ok' h2
  set half := 1 / 2 * cfg.segmentSize * o.dT c with hhalf
  have hall : ∀ x ∈ o.t, first ≤ x ∧ x ≤ last := by
    intro x hx
    obtain ⟨n, hn, rfl⟩ := List.mem_iff_getElem.mp hx
    rw [List.getElem?_eq_getElem (by omega)] at hlast
    have hlast := Option.some.inj hlast
    constructor
    · rw [← hf]
      rcases Nat.eq_zero_or_pos n with h0 | h0
      · subst h0; exact le_refl _
      · exact (List.pairwise_iff_getElem.mp hs 0 n hf0 hn h0).le
    · rw [← hlast]
      rcases Nat.lt_or_ge n (o.t.length - 1) with h0 | h0
      · exact (List.pairwise_iff_getElem.mp hs n (o.t.length - 1) hn (by omega) h0).le
      · have : n = o.t.length - 1 := by omega
        subst this; exact le_refl _
  have e1 : searchSorted o.t (max first (c - half)) = (o.t.takeWhile fun x => decide (x < c - half)).length := by
    unfold searchSorted
    congr 1
    refine takeWhile_congr fun x hx => ?_
    have := hall x hx
    simp only [lt_max_iff, decide_eq_decide]
    constructor
    · rintro (h | h)
      · exact absurd h (not_lt.mpr this.1)
      · exact h
    · exact Or.inr
  have e2 : searchRight o.t (min last (c + half)) = (o.t.takeWhile fun x => decide (x ≤ c + half)).length := by
    unfold searchRight
    congr 1
    refine takeWhile_congr fun x hx => ?_
    have := hall x hx
    simp only [le_min_iff, decide_eq_decide]
    exact ⟨fun h => h.2, fun h => ⟨this.2, h⟩⟩
  have e3 : min (o.t.takeWhile fun x => decide (x ≤ c + half)).length o.t.length =
      (o.t.takeWhile fun x => decide (x ≤ c + half)).length :=
    Nat.min_eq_left (List.takeWhile_sublist _).length_le
  rw [e1, e2, e3]
  refine ⟨by simp [hl], ?_⟩
  have hz : ∀ (i j : ℕ), ((o.t.take j).drop i).zip ((o.data.take j).drop i) = ((o.t.zip o.data).take j).drop i := by
    intro i j
    simp only [List.zip, List.drop_zipWith, List.take_zipWith]
  rw [hz]
  have := window_filter (o.t.zip o.data) (c - half) (c + half) (by
    have hm : (o.t.zip o.data).map Prod.fst = o.t := List.map_fst_zip (by omega)
    have := hs
    rw [← hm] at this
    exact List.pairwise_map.mp this)
  have hm : (o.t.zip o.data).map Prod.fst = o.t := List.map_fst_zip (by omega)
  rw [hm] at this
  rw [this]
  refine List.filter_congr fun q _ => ?_
  rw [decide_eq_decide, abs_le, hhalf]
  constructor
  · rintro ⟨h1, h2⟩; constructor <;> linarith
  · rintro ⟨h1, h2⟩; constructor <;> linarith

end

namespace Demo

/-- A check that succeeds, so the average of the asymmetry is above the threshold times that of the residual. -/
example : (checkRequirement lib cfg.threshold 8 .amp modes.t modes.amp22 modes.amp2m2).toOption = some true := by decide +kernel

/-- The segment around sample 4: two samples on each side of its centre, out of nine. -/
example : (makeSegment cfg obj 4).toOption.map (fun p => p.1) = some [2, 3, 4, 5, 6] ∧ obj.t.Pairwise (· < ·) ∧
    obj.data.length = obj.t.length := by decide +kernel

/-- Curves that cross between the samples 0, 1 and 2, 3. -/
example : (intersections [0, 2, 3, 7] [1, 3, 3, 1] [2, 2, 2, (2 : ℚ)]).toOption = some ([0, 3], [3 / 2], [3]) := by decide +kernel

/-- One crossing is not enough. -/
example : (intersections [0, 2, 3, 7] [1, 3, 3, 3] [2, 2, 2, (2 : ℚ)]).toOption = none := by decide +kernel

end Demo

end GwEcc.Filter
