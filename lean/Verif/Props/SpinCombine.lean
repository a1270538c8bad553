import Verif.Props.SpinFilter

/-!
# C44: recombination of the filtered segments

Cases that meet the premises of the theorems are in `Props/SpinDecision`.
-/

set_option linter.unusedSectionVars false

namespace GwEcc.Filter

open GwEcc.Spec

section combine
variable {K : Type} [Field K] [LinearOrder K] [IsStrictOrderedRing K]

theorem addAt_length (full : List K) (s : ℕ) (v : List K) : (addAt full s v).length = full.length := by
  unfold addAt
  rw [List.length_mapIdx]

theorem addAt_getElem? (full : List K) (s : ℕ) (v : List K) (i : ℕ) :
    (addAt full s v)[i]? = full[i]?.map fun x => x + if s ≤ i then (v[i - s]?).getD 0 else 0 := by
  unfold addAt
  rw [List.getElem?_mapIdx]
  cases full[i]? with
  | none => rfl
  | some x =>
    simp only [Option.map_some]
    split <;> simp

theorem zipWith_getD (a b : List K) (h : a.length = b.length) (i : ℕ) :
    ((List.zipWith (· * ·) a b)[i]?).getD 0 = (a[i]?).getD 0 * (b[i]?).getD 0 := by
  rw [List.getElem?_zipWith]
  rcases Nat.lt_or_ge i a.length with hi | hi
  · rw [List.getElem?_eq_getElem hi, List.getElem?_eq_getElem (h ▸ hi)]
    rfl
  · rw [List.getElem?_eq_none hi, List.getElem?_eq_none (h ▸ hi)]
    simp

theorem placed_bound {t : List K} {seg : Segment K} {s : ℕ} (h : PlacedAt t seg s) :
    0 < seg.t.length ∧ s + seg.t.length ≤ t.length ∧ seg.t[0]? = t[s]? := by
  obtain ⟨h1, h2, _⟩ := h
  have h0 : 0 < seg.t.length := List.length_pos_of_ne_nil h1
  have hl := congrArg List.length h2
  rw [List.length_take, List.length_drop] at hl
  refine ⟨h0, by omega, ?_⟩
  rw [h2, List.getElem?_take, if_pos h0, List.getElem?_drop]
  simp

theorem accumulate_placed {window : ℕ → List K} (hw : IsWindow window) {t : List K} (hs : t.Pairwise (· < ·))
    {seg : Segment K} {s : ℕ} (hp : PlacedAt t seg s) (acc : List K × List K) :
    accumulate window t acc seg = .ok (addAt acc.1 s (List.zipWith (· * ·) seg.filtered (window seg.filtered.length)),
      addAt acc.2 s (window seg.filtered.length)) := by
  obtain ⟨h0, h1, h2⟩ := placed_bound hp
  have hlt : s < t.length := by omega
  have hx : t[s]? = some t[s] := List.getElem?_eq_getElem hlt
  unfold accumulate
  rw [pyGet_of_getElem? (i := 0) (by rw [h2]; exact hx), ok_bind]
  dsimp only
  rw [searchSorted_getElem hs hx]
  have hl : seg.filtered.length = seg.t.length := hp.2.2
  rw [Nat.min_eq_left (by omega), Nat.add_sub_cancel_left, List.take_length]
  unfold npZip
  rw [if_pos ((hw _).1).symm]
  rfl

/-- The sums over the segments that the loop computes. -/
theorem accumulate_fold {window : ℕ → List K} (hw : IsWindow window) {t : List K} (hs : t.Pairwise (· < ·)) :
    ∀ {segs : List (Segment K)} {starts : List ℕ}, List.Forall₂ (PlacedAt t) segs starts → ∀ acc : List K × List K,
    ∃ y w, segs.foldlM (accumulate window t) acc = .ok (y, w) ∧ y.length = acc.1.length ∧ w.length = acc.2.length ∧
      (∀ i, y[i]? = acc.1[i]?.map (· + valueSum window (starts.zip (segs.map (·.filtered))) i)) ∧
      (∀ i, w[i]? = acc.2[i]?.map (· + weightSum window (starts.zip (segs.map (·.filtered))) i)) := by
  intro segs starts hp
  induction hp with
  | nil =>
    intro acc
    refine ⟨acc.1, acc.2, rfl, rfl, rfl, ?_, ?_⟩ <;>
    · intro i
      simp [valueSum, weightSum]
  | @cons seg s segs starts h _ ih =>
    intro acc
    obtain ⟨y, w, e, l1, l2, hy, hw'⟩ := ih (addAt acc.1 s (List.zipWith (· * ·) seg.filtered (window seg.filtered.length)),
      addAt acc.2 s (window seg.filtered.length))
    refine ⟨y, w, ?_, ?_, ?_, ?_, ?_⟩
    · rw [List.foldlM_cons, accumulate_placed hw hs h, ok_bind]
      exact e
    · rw [l1, addAt_length]
    · rw [l2, addAt_length]
    · intro i
      rw [hy i, addAt_getElem?]
      simp only [Option.map_map]
      congr 1
      funext x
      simp only [Function.comp, List.map_cons, List.zip_cons_cons, valueSum, List.sum_cons]
      rw [zipWith_getD _ _ (hw _).1.symm]
      ring
    · intro i
      rw [hw' i, addAt_getElem?]
      simp only [Option.map_map]
      congr 1
      funext x
      simp only [Function.comp, List.map_cons, List.zip_cons_cons, weightSum, List.sum_cons]
      ring

/-- Interpolation stays between bounds of the values at the nodes. -/
theorem npInterp_range {lo hi x y : K} : ∀ {l : List (K × K)}, (∀ q ∈ l, lo ≤ q.2 ∧ q.2 ≤ hi) → npInterp x l = .ok y →
    lo ≤ y ∧ y ≤ hi
  | [], _, h => by cases h
  | [q], hl, h => by
    cases h
    exact hl q (by simp)
  | q0 :: q1 :: l, hl, h => by
    unfold npInterp at h
    have h0 := hl q0 (by simp)
    have h1 := hl q1 (by simp)
    split at h
    · cases h
      exact h0
    · rename_i ha
      split at h
      · rename_i hb
        cases h
        push Not at ha
        have hd : 0 < q1.1 - q0.1 := by linarith
        set r := (x - q0.1) / (q1.1 - q0.1) with hr
        have r0 : 0 ≤ r := div_nonneg (by linarith) hd.le
        have r1 : r ≤ 1 := by rw [hr, div_le_one hd]; linarith
        have e : (q1.2 - q0.2) / (q1.1 - q0.1) * (x - q0.1) + q0.2 = r * q1.2 + (1 - r) * q0.2 := by
          rw [hr]
          field_simp
          ring
        rw [e]
        constructor <;> nlinarith
      · exact npInterp_range (fun q hq => hl q (by simp [hq])) h

/-- Before the first node the value is that of the first node. -/
theorem npInterp_before {x : K} {q : K × K} {l : List (K × K)} (h : x ≤ q.1) : npInterp x (q :: l) = .ok q.2 := by
  cases l with
  | nil => rfl
  | cons a l =>
    unfold npInterp
    rw [if_pos h]

/-- After the last node the value is that of the last node. -/
theorem npInterp_after {x : K} {q : K × K} : ∀ {l : List (K × K)}, l.Pairwise (fun a b => a.1 < b.1) → l.getLast? = some q →
    q.1 < x → npInterp x l = .ok q.2
  | [], _, h, _ => by simp at h
  | [a], _, h, _ => by
    simp at h
    rw [← h]
    rfl
  | a :: b :: l, hs, h, hx => by
    have hsb := (List.pairwise_cons.mp hs).2
    rw [List.getLast?_cons_cons] at h
    have hle : ∀ c ∈ b :: l, c.1 ≤ q.1 := by
      intro c hc
      obtain ⟨hne, hq⟩ := List.mem_getLast?_eq_getLast (l := b :: l) (x := q) (by rw [h]; rfl)
      obtain ⟨i, hi, rfl⟩ := List.getElem_of_mem hc
      rw [hq, List.getLast_eq_getElem]
      rcases Nat.lt_or_ge i ((b :: l).length - 1) with k | k
      · exact (List.pairwise_iff_getElem.mp hsb _ _ hi (by omega) k).le
      · have : i = (b :: l).length - 1 := by omega
        subst this
        exact le_refl _
    have hab : a.1 < b.1 := (List.pairwise_cons.mp hs).1 b (by simp)
    have hb := hle b (by simp)
    unfold npInterp
    rw [if_neg (by linarith), if_neg (by linarith)]
    exact npInterp_after hsb h hx

/-- What recombination does, in terms of the sums over segments. -/
theorem combine_eq {window : ℕ → List K} (hw : IsWindow window) {t : List K} (hs : t.Pairwise (· < ·))
    {segs : List (Segment K)} {starts : List ℕ} (hp : List.Forall₂ (PlacedAt t) segs starts) {placed : List (ℕ × List K)}
    (hpl : placed = starts.zip (segs.map (·.filtered))) {r : List K} (h : combine window t segs = .ok r) :
    ∃ nodes : List (K × K), r.length = t.length ∧ nodes.Pairwise (fun a b => a.1 < b.1) ∧
      (∀ q, q ∈ nodes ↔ ∃ i : ℕ, t[i]? = some q.1 ∧ 0 < weightSum window placed i ∧
        q.2 = valueSum window placed i / weightSum window placed i) ∧
      ∀ (i : ℕ) (x : K), t[i]? = some x → ∃ y, r[i]? = some y ∧
        (0 < weightSum window placed i → y = valueSum window placed i / weightSum window placed i) ∧
        (¬ 0 < weightSum window placed i → npInterp x nodes = .ok y) := by
  subst hpl
  set placed := starts.zip (segs.map (·.filtered)) with hpl
  obtain ⟨y, w, e, l1, l2, hy, hw'⟩ := accumulate_fold hw hs hp (List.replicate t.length 0, List.replicate t.length 0)
  unfold combine at h
  dsimp only at h
  rw [e, ok_bind] at h
  dsimp only at h
  set Q := t.zip (y.zip w) with hQ
  have hQl : Q.length = t.length := by
    rw [hQ, List.length_zip, List.length_zip, l1, l2]
    simp
  have hQi : ∀ (i : ℕ) (x : K), t[i]? = some x → Q[i]? = some (x, valueSum window placed i, weightSum window placed i) := by
    intro i x hx
    obtain ⟨hi, _⟩ := List.getElem?_eq_some_iff.mp hx
    have h1 := hy i
    have h2 := hw' i
    dsimp only at h1 h2
    rw [List.getElem?_replicate, if_pos hi, Option.map_some, zero_add] at h1 h2
    rw [hQ, List.getElem?_zip_eq_some]
    exact ⟨hx, List.getElem?_zip_eq_some.mpr ⟨h1, h2⟩⟩
  have hQs : Q.Pairwise (fun a b => a.1 < b.1) := by
    rw [List.pairwise_iff_getElem]
    intro i j hi hj hij
    have q1 : t[i]? = some Q[i].1 := (List.getElem?_zip_eq_some.mp (List.getElem?_eq_getElem hi)).1
    have q2 : t[j]? = some Q[j].1 := (List.getElem?_zip_eq_some.mp (List.getElem?_eq_getElem hj)).1
    obtain ⟨hi', e1⟩ := List.getElem?_eq_some_iff.mp q1
    obtain ⟨hj', e2⟩ := List.getElem?_eq_some_iff.mp q2
    rw [← e1, ← e2]
    exact List.pairwise_iff_getElem.mp hs i j hi' hj' hij
  obtain ⟨g1, g2⟩ := mapM_getElem? h
  refine ⟨(Q.filter fun q => decide (0 < q.2.2)).map fun q => (q.1, q.2.1 / q.2.2), by rw [g1, hQl], ?_, ?_, ?_⟩
  · rw [List.pairwise_map]
    exact hQs.filter _
  · intro q
    simp only [List.mem_map, List.mem_filter, decide_eq_true_eq]
    constructor
    · rintro ⟨p, ⟨hm, hpos⟩, rfl⟩
      obtain ⟨i, hi⟩ := List.getElem?_of_mem hm
      have ht := (List.getElem?_zip_eq_some.mp (hQ ▸ hi)).1
      have := hQi i _ ht
      rw [hi] at this
      have e1 : p.2 = (valueSum window placed i, weightSum window placed i) := congrArg Prod.snd (Option.some.inj this)
      rw [e1] at hpos ⊢
      exact ⟨i, ht, hpos, rfl⟩
    · rintro ⟨i, ht, hpos, hv⟩
      exact ⟨_, ⟨List.mem_of_getElem? (hQi i _ ht), hpos⟩, Prod.ext rfl hv.symm⟩
  · intro i x hx
    obtain ⟨v, hv, hr⟩ := g2 i _ (hQi i x hx)
    dsimp only at hv
    refine ⟨v, hr, fun hpos => ?_, fun hpos => ?_⟩
    · rw [if_pos hpos] at hv
      cases hv
      rfl
    · rw [if_neg hpos] at hv
      exact hv

/-- **C44.**  Recombination gives one value per sample; where segments give positive weight, it is the mean of their values at
that sample weighted by the window. -/
theorem C44_mean {window : ℕ → List K} (hw : IsWindow window) {t : List K} (hs : t.Pairwise (· < ·))
    {segs : List (Segment K)} {starts : List ℕ} (hp : List.Forall₂ (PlacedAt t) segs starts) {r : List K}
    (h : combine window t segs = .ok r) :
    r.length = t.length ∧ ∀ i, i < t.length → 0 < weightSum window (starts.zip (segs.map (·.filtered))) i →
      r[i]? = some (valueSum window (starts.zip (segs.map (·.filtered))) i /
        weightSum window (starts.zip (segs.map (·.filtered))) i) := by
  obtain ⟨nodes, h1, _, _, h4⟩ := combine_eq hw hs hp rfl h
  refine ⟨h1, fun i hi hpos => ?_⟩
  obtain ⟨y, hy, hv, _⟩ := h4 i _ (List.getElem?_eq_getElem hi)
  rw [hy, hv hpos]

theorem sum_mean_bound {α : Type} (w v : α → K) {lo hi : K} : ∀ l : List α, (∀ a ∈ l, 0 ≤ w a) →
    (∀ a ∈ l, 0 < w a → lo ≤ v a ∧ v a ≤ hi) →
    lo * (l.map w).sum ≤ (l.map fun a => v a * w a).sum ∧ (l.map fun a => v a * w a).sum ≤ hi * (l.map w).sum
  | [], _, _ => by simp
  | a :: l, h0, hv => by
    obtain ⟨i1, i2⟩ := sum_mean_bound w v l (fun b hb => h0 b (by simp [hb])) fun b hb => hv b (by simp [hb])
    simp only [List.map_cons, List.sum_cons]
    have ha := h0 a (by simp)
    rcases ha.eq_or_lt with e | e
    · rw [← e]
      constructor <;> linarith
    · obtain ⟨j1, j2⟩ := hv a (by simp) e
      constructor <;> nlinarith

/-- The weights at sample `i` of a segment given as `(start, values)`. -/
theorem weight_nonneg {window : ℕ → List K} (hw : IsWindow window) (p : ℕ × List K) (i : ℕ) :
    0 ≤ if p.1 ≤ i then ((window p.2.length)[i - p.1]?).getD 0 else 0 := by
  split
  · cases hq : (window p.2.length)[i - p.1]? with
    | none => simp
    | some x => exact (hw _).2 x (List.mem_of_getElem? hq)
  · exact le_refl _

/-- Values at a covered sample lie between bounds on the values of the covering segments. -/
theorem mean_bound {window : ℕ → List K} (hw : IsWindow window) {placed : List (ℕ × List K)} {i : ℕ} {lo hi : K}
    (hv : ∀ p ∈ placed, p.1 ≤ i → ∀ x, p.2[i - p.1]? = some x → lo ≤ x ∧ x ≤ hi) (hpos : 0 < weightSum window placed i) :
    lo ≤ valueSum window placed i / weightSum window placed i ∧ valueSum window placed i / weightSum window placed i ≤ hi := by
  have key := sum_mean_bound (lo := lo) (hi := hi)
    (fun p : ℕ × List K => if p.1 ≤ i then ((window p.2.length)[i - p.1]?).getD 0 else 0)
    (fun p : ℕ × List K => (p.2[i - p.1]?).getD 0) placed (fun p _ => weight_nonneg hw p i) (by
      intro p hp hpos
      split at hpos
      · rename_i hle
        rcases Nat.lt_or_ge (i - p.1) p.2.length with q | q
        · rw [List.getElem?_eq_getElem q]
          exact hv p hp hle _ (List.getElem?_eq_getElem q)
        · rw [List.getElem?_eq_none (by rw [(hw _).1]; exact q)] at hpos
          exact absurd hpos (lt_irrefl _)
      · exact absurd hpos (lt_irrefl _))
  have e : valueSum window placed i = (placed.map fun a => (a.2[i - a.1]?).getD 0 *
      if a.1 ≤ i then ((window a.2.length)[i - a.1]?).getD 0 else 0).sum := by
    unfold valueSum
    congr 1
    apply List.map_congr_left
    intro p _
    split <;> simp
  rw [← e] at key
  exact ⟨by rw [le_div_iff₀ hpos]; exact key.1, by rw [div_le_iff₀ hpos]; exact key.2⟩

/-- **C44.**  At a sample with positive weight the value lies within the range of the values that the segments containing the
sample have there. -/
theorem C44_local_range {window : ℕ → List K} (hw : IsWindow window) {t : List K} (hs : t.Pairwise (· < ·))
    {segs : List (Segment K)} {starts : List ℕ} (hp : List.Forall₂ (PlacedAt t) segs starts) {r : List K}
    (h : combine window t segs = .ok r) {i : ℕ} {y lo hi : K} (hi' : r[i]? = some y)
    (hpos : 0 < weightSum window (starts.zip (segs.map (·.filtered))) i)
    (hv : ∀ p ∈ starts.zip (segs.map (·.filtered)), p.1 ≤ i → ∀ x, p.2[i - p.1]? = some x → lo ≤ x ∧ x ≤ hi) :
    lo ≤ y ∧ y ≤ hi := by
  obtain ⟨h1, h2⟩ := C44_mean hw hs hp h
  obtain ⟨hlt, _⟩ := List.getElem?_eq_some_iff.mp hi'
  rw [h2 i (by rw [← h1]; exact hlt) hpos] at hi'
  cases hi'
  exact mean_bound hw hv hpos

/-- **C44.**  Every value of the recombined data lies within the range of the filtered values of the segments: nothing
overshoots, also at samples that no segment covers. -/
theorem C44_range {window : ℕ → List K} (hw : IsWindow window) {t : List K} (hs : t.Pairwise (· < ·))
    {segs : List (Segment K)} {starts : List ℕ} (hp : List.Forall₂ (PlacedAt t) segs starts) {r : List K}
    (h : combine window t segs = .ok r) {lo hi : K} (hv : ∀ seg ∈ segs, ∀ x ∈ seg.filtered, lo ≤ x ∧ x ≤ hi) :
    ∀ y ∈ r, lo ≤ y ∧ y ≤ hi := by
  obtain ⟨nodes, h1, _, h3, h4⟩ := combine_eq hw hs hp rfl h
  have hv' : ∀ (i : ℕ), ∀ p ∈ starts.zip (segs.map (·.filtered)), p.1 ≤ i → ∀ x, p.2[i - p.1]? = some x → lo ≤ x ∧ x ≤ hi := by
    intro i p hpm _ x hx
    have := (List.of_mem_zip (a := p.1) (b := p.2) hpm).2
    obtain ⟨seg, hseg, e⟩ := List.mem_map.mp this
    exact hv seg hseg x (e ▸ List.mem_of_getElem? hx)
  intro y hy
  obtain ⟨i, hi', rfl⟩ := List.getElem_of_mem hy
  obtain ⟨y, hy, c1, c2⟩ := h4 i _ (List.getElem?_eq_getElem (h1 ▸ hi'))
  rw [List.getElem?_eq_getElem hi'] at hy
  cases hy
  by_cases hpos : 0 < weightSum window (starts.zip (segs.map (·.filtered))) i
  · rw [c1 hpos]
    exact mean_bound hw (hv' i) hpos
  · refine npInterp_range (fun q hq => ?_) (c2 hpos)
    obtain ⟨j, _, hj, e⟩ := (h3 q).mp hq
    rw [e]
    exact mean_bound hw (hv' j) hj

/-- **C44.**  If filtering leaves the data of every segment as they are, recombination leaves every covered sample as it is. -/
theorem C44_unchanged {window : ℕ → List K} (hw : IsWindow window) {t data : List K} (hs : t.Pairwise (· < ·))
    {segs : List (Segment K)} {starts : List ℕ} (hp : List.Forall₂ (PlacedAt t) segs starts) {r : List K}
    (h : combine window t segs = .ok r)
    (hsame : List.Forall₂ (fun seg s => seg.filtered = (data.drop s).take seg.t.length) segs starts) {i : ℕ}
    (hi : i < t.length) (hpos : 0 < weightSum window (starts.zip (segs.map (·.filtered))) i) : r[i]? = data[i]? := by
  obtain ⟨h1, h2⟩ := C44_mean hw hs hp h
  have hmem : ∀ p ∈ starts.zip (segs.map (·.filtered)), p.1 ≤ i → ∀ x, p.2[i - p.1]? = some x → data[i]? = some x := by
    intro p hpm hle x hx
    obtain ⟨k, hk⟩ := List.getElem?_of_mem hpm
    obtain ⟨k1, k2⟩ := List.getElem?_zip_eq_some.mp hk
    rw [List.getElem?_map] at k2
    obtain ⟨seg, k3, k4⟩ := Option.map_eq_some_iff.mp k2
    have := (List.forall₂_iff_get.mp hsame).2 k (List.getElem?_eq_some_iff.mp k3).1 (List.getElem?_eq_some_iff.mp k1).1
    simp only [List.get_eq_getElem] at this
    rw [(List.getElem?_eq_some_iff.mp k3).2, (List.getElem?_eq_some_iff.mp k1).2] at this
    rw [← k4, this, List.getElem?_take] at hx
    split at hx
    · rw [List.getElem?_drop, Nat.add_sub_cancel' hle] at hx
      exact hx
    · cases hx
  have hex : ∃ x, data[i]? = some x := by
    by_contra hc
    push Not at hc
    have e : weightSum window (starts.zip (segs.map (·.filtered))) i = 0 := by
      unfold weightSum
      apply List.sum_eq_zero
      intro v hv
      obtain ⟨p, hpm, rfl⟩ := List.mem_map.mp hv
      split
      · rename_i hle
        rw [List.getElem?_eq_none]
        · rfl
        · rw [(hw _).1]
          by_contra hq
          push Not at hq
          exact hc _ (hmem p hpm hle _ (List.getElem?_eq_getElem hq))
      · rfl
    rw [e] at hpos
    exact lt_irrefl _ hpos
  obtain ⟨x, hx⟩ := hex
  have hr := h2 i hi hpos
  have := mean_bound (lo := x) (hi := x) hw (fun p hpm hle v hv => by
    have := hmem p hpm hle v hv
    rw [hx] at this
    cases this
    exact ⟨le_refl _, le_refl _⟩) hpos
  rw [hr, hx, le_antisymm this.2 this.1]

/-- **C44.**  A sample before all samples with positive weight takes the value at the first of them. -/
theorem C44_first {window : ℕ → List K} (hw : IsWindow window) {t : List K} (hs : t.Pairwise (· < ·))
    {segs : List (Segment K)} {starts : List ℕ} (hp : List.Forall₂ (PlacedAt t) segs starts) {r : List K}
    (h : combine window t segs = .ok r) {i j : ℕ} (hij : i < j) (hj : j < t.length)
    (hpos : 0 < weightSum window (starts.zip (segs.map (·.filtered))) j)
    (hfirst : ∀ k, k < j → ¬ 0 < weightSum window (starts.zip (segs.map (·.filtered))) k) : r[i]? = r[j]? := by
  obtain ⟨nodes, h1, h2, h3, h4⟩ := combine_eq hw hs hp rfl h
  obtain ⟨yi, hyi, _, ci⟩ := h4 i _ (List.getElem?_eq_getElem (lt_trans hij hj))
  obtain ⟨yj, hyj, cj, _⟩ := h4 j _ (List.getElem?_eq_getElem hj)
  have hm := (h3 (t[j], yj)).mpr ⟨j, List.getElem?_eq_getElem hj, hpos, cj hpos⟩
  have hi' := ci (hfirst i hij)
  cases nodes with
  | nil => simp at hm
  | cons q nodes =>
    have hq := (h3 q).mp (by simp)
    obtain ⟨k, hk, hkpos, hkv⟩ := hq
    have hjk : j ≤ k := by
      by_contra hc
      exact hfirst k (by omega) hkpos
    obtain ⟨hkl, hkt⟩ := List.getElem?_eq_some_iff.mp hk
    have hle : q.1 ≤ t[j] := by
      rcases List.mem_cons.mp hm with e | e
      · exact le_of_eq (congrArg Prod.fst e).symm
      · exact ((List.pairwise_cons.mp h2).1 _ e).le
    have hkj : k = j := by
      by_contra hc
      have := List.pairwise_iff_getElem.mp hs j k hj hkl (by omega)
      rw [hkt] at this
      exact absurd this (not_lt.mpr hle)
    subst hkj
    rw [npInterp_before (by rw [← hkt]; exact (List.pairwise_iff_getElem.mp hs i k (lt_trans hij hj) hj hij).le)] at hi'
    cases hi'
    rw [hyi, hyj, cj hpos, hkv]

/-- **C44.**  A sample after all samples with positive weight takes the value at the last of them. -/
theorem C44_last {window : ℕ → List K} (hw : IsWindow window) {t : List K} (hs : t.Pairwise (· < ·))
    {segs : List (Segment K)} {starts : List ℕ} (hp : List.Forall₂ (PlacedAt t) segs starts) {r : List K}
    (h : combine window t segs = .ok r) {i j : ℕ} (hij : j < i) (hi : i < t.length)
    (hpos : 0 < weightSum window (starts.zip (segs.map (·.filtered))) j)
    (hlast : ∀ k, j < k → ¬ 0 < weightSum window (starts.zip (segs.map (·.filtered))) k) : r[i]? = r[j]? := by
  obtain ⟨nodes, h1, h2, h3, h4⟩ := combine_eq hw hs hp rfl h
  have hj : j < t.length := lt_trans hij hi
  obtain ⟨yi, hyi, _, ci⟩ := h4 i _ (List.getElem?_eq_getElem hi)
  obtain ⟨yj, hyj, cj, _⟩ := h4 j _ (List.getElem?_eq_getElem hj)
  have hm := (h3 (t[j], yj)).mpr ⟨j, List.getElem?_eq_getElem hj, hpos, cj hpos⟩
  have hi' := ci (hlast i hij)
  have hne : nodes ≠ [] := List.ne_nil_of_mem hm
  set q := nodes.getLast hne with hq
  obtain ⟨k, hk, hkpos, hkv⟩ := (h3 q).mp (List.getLast_mem hne)
  obtain ⟨hkl, hkt⟩ := List.getElem?_eq_some_iff.mp hk
  have hkj' : k ≤ j := by
    by_contra hc
    exact hlast k (by omega) hkpos
  have hle : t[j] ≤ q.1 := by
    obtain ⟨n, hn, e⟩ := List.getElem_of_mem hm
    have e1 : t[j] = nodes[n].1 := by rw [e]
    rw [e1, hq, List.getLast_eq_getElem]
    rcases Nat.lt_or_ge n (nodes.length - 1) with c | c
    · exact (List.pairwise_iff_getElem.mp h2 _ _ hn (by omega) c).le
    · have : n = nodes.length - 1 := by omega
      subst this
      exact le_refl _
  have hkj : k = j := by
    by_contra hc
    have := List.pairwise_iff_getElem.mp hs k j hkl hj (by omega)
    rw [hkt] at this
    exact absurd this (not_lt.mpr hle)
  subst hkj
  rw [npInterp_after h2 (List.getLast?_eq_some_getLast hne)
    (by rw [← hq, ← hkt]; exact List.pairwise_iff_getElem.mp hs k i hkl hi hij), ← hq] at hi'
  cases hi'
  rw [hyi, hyj, cj hpos, hkv]

/-- **C44.**  The whole filter: the result has one value per sample of the waveform, every value lies within the range of the
filtered values of the segments, and these consist of at least two consecutive samples each. -/
theorem C44_applyFilter {lib : FilterLib K} {cfg : FilterCfg K} {o : FilterObj K} (hw : IsWindow lib.hanning)
    (hs : o.t.Pairwise (· < ·)) (hseg : 0 < cfg.segmentSize) (ha : 0 < cfg.alpha) {fuel : ℕ} {r : List K}
    (h : applyFilter fuel lib cfg o = some (.ok r)) :
    ∃ segs starts, segments fuel lib cfg o = some (.ok segs) ∧ List.Forall₂ (PlacedAt o.t) segs starts ∧
      (∀ seg ∈ segs, 2 ≤ seg.t.length) ∧ combine lib.hanning o.t segs = .ok r ∧ r.length = o.t.length ∧
      ∀ lo hi, (∀ seg ∈ segs, ∀ x ∈ seg.filtered, lo ≤ x ∧ x ≤ hi) → ∀ y ∈ r, lo ≤ y ∧ y ≤ hi := by
  unfold applyFilter at h
  obtain ⟨r', hr', h⟩ := Option.map_eq_some_iff.mp h
  obtain ⟨segs, rfl, h⟩ := bind_ok h
  have hpl := segments_placed hs hseg ha hr'
  have hex : ∀ l : List (Segment K), (∀ x ∈ l, ∃ s, PlacedAt o.t x s) → ∃ starts, List.Forall₂ (PlacedAt o.t) l starts := by
    intro l
    induction l with
    | nil => intro _; exact ⟨[], List.Forall₂.nil⟩
    | cons a l ih =>
      intro hl
      obtain ⟨s, hs'⟩ := hl a (by simp)
      obtain ⟨st, hst⟩ := ih fun x hx => hl x (by simp [hx])
      exact ⟨s :: st, List.Forall₂.cons hs' hst⟩
  obtain ⟨starts, hst⟩ := hex segs fun x hx => by
    obtain ⟨s, h1, _⟩ := hpl x hx
    exact ⟨s, h1⟩
  refine ⟨segs, starts, hr', hst, fun x hx => ?_, h, (C44_mean hw hs hst h).1, fun lo hi hv => C44_range hw hs hst h hv⟩
  obtain ⟨s, _, h2⟩ := hpl x hx
  exact h2

/-- If recombination succeeds on at least one sample, some sample has positive weight. -/
theorem combine_covered {window : ℕ → List K} (hw : IsWindow window) {t : List K} (hs : t.Pairwise (· < ·))
    {segs : List (Segment K)} {starts : List ℕ} (hp : List.Forall₂ (PlacedAt t) segs starts) {r : List K}
    (h : combine window t segs = .ok r) (hne : t ≠ []) :
    ∃ j, j < t.length ∧ 0 < weightSum window (starts.zip (segs.map (·.filtered))) j := by
  obtain ⟨nodes, h1, h2, h3, h4⟩ := combine_eq hw hs hp rfl h
  have h0 : 0 < t.length := List.length_pos_of_ne_nil hne
  by_contra hc
  push Not at hc
  obtain ⟨y, _, _, hy⟩ := h4 0 _ (List.getElem?_eq_getElem h0)
  have hn : nodes = [] := by
    rw [List.eq_nil_iff_forall_not_mem]
    intro q hq
    obtain ⟨i, hi, hpos, _⟩ := (h3 q).mp hq
    exact absurd hpos (not_lt.mpr (hc i (List.getElem?_eq_some_iff.mp hi).1))
  have := hy (not_lt.mpr (hc 0 h0))
  rw [hn] at this
  cases this

/-- **C44.**  With a window that vanishes at both ends, the first and the last sample of the waveform never get the value that a
segment has there: they repeat the value at the nearest covered sample. -/
theorem C44_ends {window : ℕ → List K} (hw : IsWindow window)
    (h0 : ∀ n, 2 ≤ n → (window n)[0]? = some 0 ∧ (window n)[n - 1]? = some 0) {t : List K} (hs : t.Pairwise (· < ·))
    (hne : t ≠ []) {segs : List (Segment K)} {starts : List ℕ} (hp : List.Forall₂ (PlacedAt t) segs starts)
    (h2 : ∀ seg ∈ segs, 2 ≤ seg.t.length) {r : List K} (h : combine window t segs = .ok r) :
    (∃ j, 0 < j ∧ j < t.length ∧ 0 < weightSum window (starts.zip (segs.map (·.filtered))) j ∧
      (∀ k, k < j → ¬ 0 < weightSum window (starts.zip (segs.map (·.filtered))) k) ∧ r[0]? = r[j]?) ∧
    (∃ j, j < t.length - 1 ∧ 0 < weightSum window (starts.zip (segs.map (·.filtered))) j ∧
      (∀ k, j < k → ¬ 0 < weightSum window (starts.zip (segs.map (·.filtered))) k) ∧ r[t.length - 1]? = r[j]?) := by
  obtain ⟨j, hj, hpos⟩ := combine_covered hw hs hp h hne
  have hpl : ∀ p ∈ starts.zip (segs.map (·.filtered)), 2 ≤ p.2.length ∧ p.1 + p.2.length ≤ t.length := by
    intro p hpm
    obtain ⟨k, hk⟩ := List.getElem?_of_mem hpm
    obtain ⟨k1, k2⟩ := List.getElem?_zip_eq_some.mp hk
    rw [List.getElem?_map] at k2
    obtain ⟨seg, k3, k4⟩ := Option.map_eq_some_iff.mp k2
    have := (List.forall₂_iff_get.mp hp).2 k (List.getElem?_eq_some_iff.mp k3).1 (List.getElem?_eq_some_iff.mp k1).1
    simp only [List.get_eq_getElem] at this
    rw [(List.getElem?_eq_some_iff.mp k3).2, (List.getElem?_eq_some_iff.mp k1).2] at this
    have hl : p.2.length = seg.t.length := by rw [← k4]; exact this.2.2
    rw [hl]
    exact ⟨h2 seg (List.mem_of_getElem? k3), (placed_bound this).2.1⟩
  have hz : ∀ i, (i = 0 ∨ t.length - 1 ≤ i) → weightSum window (starts.zip (segs.map (·.filtered))) i = 0 := by
    intro i hi
    unfold weightSum
    apply List.sum_eq_zero
    intro v hv
    obtain ⟨p, hpm, rfl⟩ := List.mem_map.mp hv
    obtain ⟨p1, p2⟩ := hpl p hpm
    split
    · rename_i hle
      rcases hi with rfl | hi
      · rw [Nat.zero_sub, (h0 _ p1).1]
        rfl
      · rcases Nat.lt_or_ge (i - p.1) p.2.length with c | c
        · have : i - p.1 = p.2.length - 1 := by omega
          rw [this, (h0 _ p1).2]
          rfl
        · rw [List.getElem?_eq_none (by rw [(hw _).1]; exact c)]
          rfl
    · rfl
  classical
  constructor
  · have hex : ∃ k, k < t.length ∧ 0 < weightSum window (starts.zip (segs.map (·.filtered))) k := ⟨j, hj, hpos⟩
    have hm : ∀ k, k < Nat.find hex → ¬ 0 < weightSum window (starts.zip (segs.map (·.filtered))) k := by
      intro k hk hc
      exact Nat.find_min hex hk ⟨lt_trans hk (Nat.find_spec hex).1, hc⟩
    have hp0 : 0 < Nat.find hex := by
      rw [Nat.pos_iff_ne_zero]
      intro e
      have := (Nat.find_spec hex).2
      rw [hz _ (Or.inl e)] at this
      exact lt_irrefl _ this
    exact ⟨Nat.find hex, hp0, (Nat.find_spec hex).1, (Nat.find_spec hex).2, hm,
      C44_first hw hs hp h hp0 (Nat.find_spec hex).1 (Nat.find_spec hex).2 hm⟩
  · set P := fun k => 0 < weightSum window (starts.zip (segs.map (·.filtered))) k with hP
    have hg := Nat.findGreatest_spec (P := P) (n := t.length) hj.le hpos
    set g := Nat.findGreatest P t.length with hgdef
    have hm : ∀ k, g < k → ¬ 0 < weightSum window (starts.zip (segs.map (·.filtered))) k := by
      intro k hk hc
      rcases le_or_gt k t.length with q | q
      · exact Nat.findGreatest_is_greatest hk q hc
      · rw [hz k (Or.inr (by omega))] at hc
        exact lt_irrefl _ hc
    have hgl : g < t.length - 1 := by
      by_contra hc
      have : 0 < weightSum window (starts.zip (segs.map (·.filtered))) g := hg
      rw [hz g (Or.inr (by omega))] at this
      exact lt_irrefl _ this
    exact ⟨g, hgl, hg, hm, C44_last hw hs hp h hgl (by omega) hg hm⟩

end combine

/-! ### The window of the code -/

/-- `np.hanning` meets the assumptions on the window: it has as many weights as asked for, none negative, zero at both ends and
positive inside. -/
theorem C44_hann : IsWindow Spec.hann ∧ (∀ n, 2 ≤ n → (Spec.hann n)[0]? = some 0 ∧ (Spec.hann n)[n - 1]? = some 0) ∧
    ∀ n k, 0 < k → k + 1 < n → ∃ w, (Spec.hann n)[k]? = some w ∧ 0 < w := by
  have hget : ∀ n k, 2 ≤ n → k < n →
      (Spec.hann n)[k]? = some (1 / 2 - 1 / 2 * Real.cos (2 * Real.pi * k / ((n : ℝ) - 1))) := by
    intro n k hn hk
    unfold Spec.hann
    rw [if_neg (by omega), List.getElem?_map, List.getElem?_range hk]
    rfl
  have hpos : ∀ n : ℕ, 2 ≤ n → (0 : ℝ) < (n : ℝ) - 1 := by
    intro n hn
    have : (2 : ℝ) ≤ n := by exact_mod_cast hn
    linarith
  refine ⟨fun n => ⟨?_, ?_⟩, fun n hn => ⟨?_, ?_⟩, fun n k hk hkn => ⟨_, hget n k (by omega) (by omega), ?_⟩⟩
  · unfold Spec.hann
    split
    · rename_i h; simp [h]
    · simp
  · intro w hw
    unfold Spec.hann at hw
    split at hw
    · simp at hw; rw [hw]; norm_num
    · obtain ⟨k, _, rfl⟩ := List.mem_map.mp hw
      have := Real.cos_le_one (2 * Real.pi * k / ((n : ℝ) - 1))
      linarith
  · rw [hget n 0 hn (by omega)]
    norm_num
  · rw [hget n (n - 1) hn (by omega)]
    have e : ((n - 1 : ℕ) : ℝ) = (n : ℝ) - 1 := by
      rw [Nat.cast_sub (by omega)]; norm_num
    rw [e, mul_div_assoc, div_self (hpos n hn).ne', mul_one, Real.cos_two_pi]
    norm_num
  · have hlt : Real.cos (2 * Real.pi * k / ((n : ℝ) - 1)) < 1 := by
      refine lt_of_le_of_ne (Real.cos_le_one _) fun hc => ?_
      obtain ⟨m, hm⟩ := (Real.cos_eq_one_iff _).mp hc
      have hd := hpos n (by omega)
      have hpi := Real.pi_pos
      have e : (m : ℝ) * ((n : ℝ) - 1) = k := by
        rw [eq_div_iff hd.ne'] at hm
        have : 2 * Real.pi * ((m : ℝ) * ((n : ℝ) - 1)) = 2 * Real.pi * k := by linarith
        exact mul_left_cancel₀ (by positivity) this
      have k0 : (0 : ℝ) < k := by exact_mod_cast hk
      have k1 : (k : ℝ) < (n : ℝ) - 1 := by
        have : ((k + 1 : ℕ) : ℝ) < n := by exact_mod_cast hkn
        push_cast at this
        linarith
      have m0 : (0 : ℝ) < m := by
        by_contra hc
        push Not at hc
        have : (m : ℝ) * ((n : ℝ) - 1) ≤ 0 := mul_nonpos_of_nonpos_of_nonneg hc hd.le
        linarith
      have m1 : (m : ℝ) < 1 := by
        by_contra hc
        push Not at hc
        nlinarith
      have m0' : 0 < m := by exact_mod_cast m0
      have m1' : m < 1 := by exact_mod_cast m1
      omega
    linarith

end GwEcc.Filter
