import Verif.Model.Compare
import Verif.Props.LoadData
import Verif.Props.Utils

/-!
# C63, C64: comparison of methods, truncation by frequency
-/

set_option linter.unusedSectionVars false

namespace GwEcc.Compare

variable {K : Type} [Field K] [LinearOrder K] [IsStrictOrderedRing K]

/-! ### `np.unwrap` -/

section unwrap
variable [FloorRing K] {pi : K}

theorem unwrapStep_mult (pi dd : K) : ∃ k : ℤ, unwrapStep pi dd = 2 * pi * k := by
  unfold unwrapStep pyMod
  dsimp only
  split
  · exact ⟨0, by simp⟩
  · split
    · rename_i h
      refine ⟨-⌊(dd + pi) / (2 * pi)⌋ + 1, ?_⟩
      push_cast
      linear_combination -h.1
    · refine ⟨-⌊(dd + pi) / (2 * pi)⌋, ?_⟩
      push_cast
      ring

theorem unwrapStep_range (hpi : 0 < pi) (dd : K) : |dd + unwrapStep pi dd| ≤ pi := by
  have h2 : 0 < 2 * pi := by linarith
  have hfl := Int.floor_le ((dd + pi) / (2 * pi))
  have hlt := Int.lt_floor_add_one ((dd + pi) / (2 * pi))
  rw [le_div_iff₀ h2] at hfl
  rw [div_lt_iff₀ h2] at hlt
  unfold unwrapStep pyMod
  dsimp only
  split
  · rename_i h
    simpa using h.le
  · split
    · rw [add_sub_cancel, abs_of_pos hpi]
    · rw [add_sub_cancel, abs_le]
      constructor <;> nlinarith

/-- `unwrap`, from a state: every entry is changed by a multiple of `2 pi`, and differences of consecutive entries are at most `pi`. -/
theorem unwrapFrom_spec (hpi : 0 < pi) (l : List K) (prev acc : K) (hacc : ∃ k : ℤ, acc = 2 * pi * k) :
    (unwrapFrom pi prev acc l).length = l.length ∧
      (∀ (i : ℕ) (x : K), l[i]? = some x → ∃ (y : K) (k : ℤ), (unwrapFrom pi prev acc l)[i]? = some y ∧ y = x + 2 * pi * k) ∧
      ∀ (i : ℕ) (y z : K), ((prev + acc) :: unwrapFrom pi prev acc l)[i]? = some y →
        ((prev + acc) :: unwrapFrom pi prev acc l)[i + 1]? = some z → |z - y| ≤ pi := by
  induction l generalizing prev acc with
  | nil =>
    refine ⟨rfl, fun i x h => by simp at h, fun i y z _ hz => ?_⟩
    simp [unwrapFrom] at hz
  | cons x l ih =>
    obtain ⟨k, hk⟩ := hacc
    obtain ⟨k', hk'⟩ := unwrapStep_mult pi (x - prev)
    have hacc' : ∃ k : ℤ, acc + unwrapStep pi (x - prev) = 2 * pi * k := ⟨k + k', by push_cast; rw [hk, hk']; ring⟩
    obtain ⟨e1, e2, e3⟩ := ih x (acc + unwrapStep pi (x - prev)) hacc'
    refine ⟨by simp only [unwrapFrom, List.length_cons, e1], fun i y hi => ?_, fun i y z hy hz => ?_⟩
    · cases i with
      | zero =>
        simp only [List.getElem?_cons_zero, Option.some.injEq] at hi
        subst hi
        obtain ⟨n, hn⟩ := hacc'
        exact ⟨x + (acc + unwrapStep pi (x - prev)), n, by simp only [unwrapFrom, List.getElem?_cons_zero], by rw [hn]⟩
      | succ i =>
        rw [List.getElem?_cons_succ] at hi
        obtain ⟨w, n, h1, h2⟩ := e2 i y hi
        exact ⟨w, n, by simp only [unwrapFrom, List.getElem?_cons_succ]; exact h1, h2⟩
    · cases i with
      | zero =>
        simp only [List.getElem?_cons_zero, Option.some.injEq] at hy
        simp only [unwrapFrom, zero_add, List.getElem?_cons_succ, List.getElem?_cons_zero, Option.some.injEq] at hz
        subst hy hz
        have := unwrapStep_range hpi (x - prev)
        have e : x + (acc + unwrapStep pi (x - prev)) - (prev + acc) = x - prev + unwrapStep pi (x - prev) := by ring
        rw [e]
        exact this
      | succ i =>
        rw [List.getElem?_cons_succ] at hy hz
        simp only [unwrapFrom] at hy hz
        exact e3 i y z hy hz

/-- **C63, the unwrapping.**  One entry per entry, the first unchanged, every entry changed by a multiple of `2 pi`, consecutive
entries at most `pi` apart. -/
theorem C63_unwrap (hpi : 0 < pi) (l : List K) :
    (unwrap pi l).length = l.length ∧ (unwrap pi l)[0]? = l[0]? ∧
      (∀ (i : ℕ) (x : K), l[i]? = some x → ∃ (y : K) (k : ℤ), (unwrap pi l)[i]? = some y ∧ y = x + 2 * pi * k) ∧
      ∀ (i : ℕ) (y z : K), (unwrap pi l)[i]? = some y → (unwrap pi l)[i + 1]? = some z → |z - y| ≤ pi := by
  cases l with
  | nil => exact ⟨rfl, rfl, fun i x h => by simp at h, fun i y z h => by simp [unwrap] at h⟩
  | cons x l =>
    obtain ⟨e1, e2, e3⟩ := unwrapFrom_spec hpi l x 0 ⟨0, by simp⟩
    rw [add_zero] at e3
    refine ⟨by simp only [unwrap, List.length_cons, e1], rfl, fun i y hi => ?_, e3⟩
    cases i with
    | zero => exact ⟨y, 0, by simpa [unwrap] using hi, by simp⟩
    | succ i =>
      rw [List.getElem?_cons_succ] at hi
      obtain ⟨w, n, h1, h2⟩ := e2 i y hi
      exact ⟨w, n, by simp only [unwrap, List.getElem?_cons_succ]; exact h1, h2⟩

/-- A multiple of `2 pi` smaller than `2 pi` is 0. -/
theorem mult_zero (hpi : 0 < pi) {x : K} {k : ℤ} (hx : x = 2 * pi * k) (hlt : |x| < 2 * pi) : x = 0 := by
  have h2 : 0 < 2 * pi := by linarith
  rw [hx, abs_mul, abs_of_pos h2] at hlt
  have h1 : |(k : K)| < 1 := by
    by_contra hc
    push Not at hc
    nlinarith
  have h3 : |k| < 1 := by
    have : ((|k| : ℤ) : K) < 1 := by push_cast; exact h1
    exact_mod_cast this
  have : k = 0 := by
    rw [abs_lt] at h3
    omega
  rw [hx, this]
  simp

/-- Two unwrapped sequences stay within `d` of each other if they start so, are within `d` of each other on the circle, and neither
makes steps larger than `s` on the circle, `s + d < pi`. -/
theorem unwrap_close (hpi : 0 < pi) {a b : List K} {s d : K} (hsd : s + d < pi) (hd0 : 0 ≤ d)
    (ha : ∀ (i : ℕ) (x y : K), a[i]? = some x → a[i + 1]? = some y → ∃ k : ℤ, |y - x + 2 * pi * k| ≤ s)
    (hb : ∀ (i : ℕ) (x y : K), b[i]? = some x → b[i + 1]? = some y → ∃ k : ℤ, |y - x + 2 * pi * k| ≤ s)
    (hab : ∀ (i : ℕ) (x y : K), a[i]? = some x → b[i]? = some y → ∃ k : ℤ, |x - y + 2 * pi * k| ≤ d)
    (h0 : ∀ x y : K, a[0]? = some x → b[0]? = some y → |x - y| ≤ d) (i : ℕ) (X Y : K)
    (hX : (unwrap pi a)[i]? = some X) (hY : (unwrap pi b)[i]? = some Y) : |X - Y| ≤ d := by
  obtain ⟨la, fa, ma, sa⟩ := C63_unwrap hpi a
  obtain ⟨lb, fb, mb, sb⟩ := C63_unwrap hpi b
  have back : ∀ {l : List K} {n : ℕ} {Z : K}, (unwrap pi l)[n]? = some Z → ∃ (x : K) (k : ℤ), l[n]? = some x ∧ Z = x + 2 * pi * k := by
    intro l n Z hZ
    obtain ⟨ll, _, ml, _⟩ := C63_unwrap hpi l
    have hn : n < l.length := by
      have := (List.getElem?_eq_some_iff.mp hZ).1
      rwa [ll] at this
    obtain ⟨y, k, h1, h2⟩ := ml n _ (List.getElem?_eq_getElem hn)
    rw [hZ] at h1
    cases h1
    exact ⟨l[n], k, List.getElem?_eq_getElem hn, h2⟩
  -- steps of the unwrapped sequences are the small ones
  have step : ∀ {l : List K}, (∀ (i : ℕ) (x y : K), l[i]? = some x → l[i + 1]? = some y → ∃ k : ℤ, |y - x + 2 * pi * k| ≤ s) →
      ∀ (n : ℕ) (Z W : K), (unwrap pi l)[n]? = some Z → (unwrap pi l)[n + 1]? = some W → |W - Z| ≤ s := by
    intro l hl n Z W hZ hW
    obtain ⟨x, k1, hx, rfl⟩ := back hZ
    obtain ⟨y, k2, hy, rfl⟩ := back hW
    obtain ⟨k, hk⟩ := hl n x y hx hy
    have hr := (C63_unwrap hpi l).2.2.2 n _ _ hZ hW
    have hs : s < pi := by linarith
    have hz : (y + 2 * pi * k2 - (x + 2 * pi * k1)) - (y - x + 2 * pi * k) = 0 := by
      apply mult_zero hpi (k := k2 - k1 - k)
      · push_cast; ring
      · calc |(y + 2 * pi * k2 - (x + 2 * pi * k1)) - (y - x + 2 * pi * k)|
            ≤ |y + 2 * pi * k2 - (x + 2 * pi * k1)| + |y - x + 2 * pi * k| := abs_sub _ _
          _ < 2 * pi := by linarith
    rw [sub_eq_zero.mp hz]
    exact hk
  induction i generalizing X Y with
  | zero =>
    rw [fa] at hX
    rw [fb] at hY
    exact h0 X Y hX hY
  | succ i ih =>
    have hia : i < (unwrap pi a).length := by have := (List.getElem?_eq_some_iff.mp hX).1; omega
    have hib : i < (unwrap pi b).length := by have := (List.getElem?_eq_some_iff.mp hY).1; omega
    have pa := List.getElem?_eq_getElem hia
    have pb := List.getElem?_eq_getElem hib
    have h1 := ih _ _ pa pb
    have h2 := step ha i _ _ pa hX
    have h3 := step hb i _ _ pb hY
    obtain ⟨x, k1, hx, rfl⟩ := back hX
    obtain ⟨y, k2, hy, rfl⟩ := back hY
    obtain ⟨k, hk⟩ := hab (i + 1) x y hx hy
    have hz : (x + 2 * pi * k1 - (y + 2 * pi * k2)) - (x - y + 2 * pi * k) = 0 := by
      apply mult_zero hpi (k := k1 - k2 - k)
      · push_cast; ring
      · have e : (x + 2 * pi * k1 - (y + 2 * pi * k2)) - (x - y + 2 * pi * k) =
            (((unwrap pi a)[i] - (unwrap pi b)[i]) + (x + 2 * pi * k1 - (unwrap pi a)[i])) -
              ((y + 2 * pi * k2 - (unwrap pi b)[i]) + (x - y + 2 * pi * k)) := by ring
        rw [e]
        refine lt_of_le_of_lt (abs_sub _ _) ?_
        have t1 := abs_add_le ((unwrap pi a)[i] - (unwrap pi b)[i]) (x + 2 * pi * k1 - (unwrap pi a)[i])
        have t2 := abs_add_le (y + 2 * pi * k2 - (unwrap pi b)[i]) (x - y + 2 * pi * k)
        linarith
    rw [sub_eq_zero.mp hz]
    exact hk

end unwrap

/-! ### C63 -/

section errors
variable [FloorRing K] {pi : K}

theorem maskSelect_ok {α : Type} {mask : List Bool} {l r : List α} (h : maskSelect mask l = .ok r) :
    mask.length = l.length ∧ r = (l.zip mask).filterMap fun p => if p.2 then some p.1 else none := by
  unfold maskSelect at h
  split at h
  · rename_i hl
    cases h
    exact ⟨hl, rfl⟩
  · cases h

theorem maskSelect_length {α β : Type} {mask : List Bool} {l r : List α} {l' r' : List β} (h : maskSelect mask l = .ok r)
    (h' : maskSelect mask l' = .ok r') : r.length = r'.length := by
  obtain ⟨h1, rfl⟩ := maskSelect_ok h
  obtain ⟨h2, rfl⟩ := maskSelect_ok h'
  clear h h'
  induction mask generalizing l l' with
  | nil =>
    rw [List.zip_nil_right, List.zip_nil_right]
    rfl
  | cons b mask ih =>
    rcases l with _ | ⟨x, l⟩
    · simp at h1
    rcases l' with _ | ⟨x', l'⟩
    · simp at h2
    have := ih (l := l) (l' := l') (by simpa using h1) (by simpa using h2)
    cases b <;> simp [this]

theorem maskSelect_filter {l r : List K} {lo hi : K} (h : maskSelect (inWindow lo hi l) l = .ok r) :
    r = l.filter fun x => decide (lo ≤ x) && decide (x < hi) := by
  obtain ⟨_, rfl⟩ := maskSelect_ok h
  unfold inWindow
  clear h
  induction l with
  | nil => rfl
  | cons x l ih =>
    rw [List.map_cons, List.zip_cons_cons, List.filterMap_cons, List.filter_cons, ih (by simp [inWindow])]
    cases hb : (decide (lo ≤ x) && decide (x < hi)) <;> simp

theorem assertClose_ok {a b : List K} (h : assertClose a b = .ok ()) :
    a.length = b.length ∧ ∀ (i : ℕ) (x y : K), a[i]? = some x → b[i]? = some y → |x - y| ≤ 1 / 10 ^ 7 * |y| := by
  unfold assertClose at h
  split at h
  · rename_i hc
    refine ⟨hc.1, fun i x y hx hy => ?_⟩
    have hm : (x, y) ∈ a.zip b := List.mem_of_getElem? (i := i) (by rw [List.getElem?_zip_eq_some]; exact ⟨hx, hy⟩)
    have := List.all_eq_true.mp hc.2 _ hm
    simpa using this
  · cases h

/-- The window lies inside the range of both methods and the limits given. -/
theorem commonWindow_ok {o1 o2 : Measured K} {tmin tmax : Option K} {lo hi : K} (h : commonWindow o1 o2 tmin tmax = .ok (lo, hi)) :
    lo = max (max o1.tmin o2.tmin) (tmin.getD o1.tmin) ∧ hi = min (min o1.tmax o2.tmax) (tmax.getD o1.tmax) := by
  unfold commonWindow at h
  obtain ⟨lo', e1, h1⟩ := bind_ok h
  obtain ⟨hi', e2, h2⟩ := bind_ok h1
  obtain ⟨rfl, rfl⟩ := Prod.mk.inj (Except.ok.inj h2)
  constructor
  · cases tmin with
    | none =>
      cases e1
      simp
    | some x =>
      dsimp only at e1
      split at e1
      · cases e1
      · cases e1
        rfl
  · cases tmax with
    | none =>
      cases e2
      simp
    | some x =>
      dsimp only at e2
      split at e2
      · cases e2
      · cases e2
        rfl

/-- What a successful comparison computed. -/
theorem computeErrors_ok {o1 o2 : Measured K} {tmin tmax : Option K} {r : Errors K} (h : computeErrors pi o1 o2 tmin tmax = .ok r) :
    ∃ lo hi t2, commonWindow o1 o2 tmin tmax = .ok (lo, hi) ∧ assertClose o1.trefIn o2.trefIn = .ok () ∧
      maskSelect (inWindow lo hi o1.trefOut) o1.trefOut = .ok r.t ∧ maskSelect (inWindow lo hi o2.trefOut) o2.trefOut = .ok t2 ∧
      assertClose r.t t2 = .ok () ∧
      maskSelect (inWindow lo hi o1.trefOut) o1.ecc = .ok r.ecc1 ∧ maskSelect (inWindow lo hi o2.trefOut) o2.ecc = .ok r.ecc2 ∧
      maskSelect (inWindow lo hi o1.trefOut) o1.meanAno = .ok r.meanAno1 ∧
      maskSelect (inWindow lo hi o2.trefOut) o2.meanAno = .ok r.meanAno2 ∧
      r.ecc = List.zipWith (fun x y => |x - y|) r.ecc1 r.ecc2 ∧
      r.meanAno = List.zipWith (fun x y => |x - y|) (unwrap pi r.meanAno1) (unwrap pi r.meanAno2) := by
  unfold computeErrors at h
  obtain ⟨_, e0, h0⟩ := bind_ok h
  obtain ⟨⟨lo, hi⟩, e1, h1⟩ := bind_ok h0
  obtain ⟨t1, e2, h2⟩ := bind_ok h1
  obtain ⟨t2, e3, h3⟩ := bind_ok h2
  obtain ⟨_, e4, h4⟩ := bind_ok h3
  obtain ⟨a, e5, h5⟩ := bind_ok h4
  obtain ⟨b, e6, h6⟩ := bind_ok h5
  obtain ⟨c, e7, h7⟩ := bind_ok h6
  obtain ⟨d, e8, h8⟩ := bind_ok h7
  cases h8
  exact ⟨lo, hi, t2, e1, e0, e2, e3, e4, e5, e6, e7, e8, rfl, rfl⟩

/-- **C63.**  The times of the comparison are the output times of the first method from the later of the two starts up to, not
including, the earlier of the two ends (and within the limits given); those of the second method in that range agree with them to a
relative `1e-7`; there is one error per time. -/
theorem C63_common (hpi : 0 < pi) {o1 o2 : Measured K} {tmin tmax : Option K} {r : Errors K}
    (h : computeErrors pi o1 o2 tmin tmax = .ok r) :
    ∃ lo hi, lo = max (max o1.tmin o2.tmin) (tmin.getD o1.tmin) ∧ hi = min (min o1.tmax o2.tmax) (tmax.getD o1.tmax) ∧
      r.t = o1.trefOut.filter (fun x => decide (lo ≤ x) && decide (x < hi)) ∧
      (∀ (i : ℕ) (x y : K), r.t[i]? = some x →
        (o2.trefOut.filter fun x => decide (lo ≤ x) && decide (x < hi))[i]? = some y → |x - y| ≤ 1 / 10 ^ 7 * |y|) ∧
      r.ecc.length = r.t.length ∧ r.meanAno.length = r.t.length := by
  obtain ⟨lo, hi, t2, e1, _, e2, e3, e4, e5, e6, e7, e8, e9, e10⟩ := computeErrors_ok h
  obtain ⟨q1, q2⟩ := commonWindow_ok e1
  have l1 := maskSelect_length e2 e5
  have l2 := maskSelect_length e3 e6
  have l3 := maskSelect_length e2 e7
  have l4 := maskSelect_length e3 e8
  obtain ⟨l5, hc⟩ := assertClose_ok e4
  refine ⟨lo, hi, q1, q2, maskSelect_filter e2, fun i x y hx hy => ?_, ?_, ?_⟩
  · rw [← maskSelect_filter e3] at hy
    exact hc i x y hx hy
  · rw [e9, List.length_zipWith]
    omega
  · rw [e10, List.length_zipWith, (C63_unwrap hpi _).1, (C63_unwrap hpi _).1]
    omega

theorem maskSelect_zip {α : Type} {ts : List K} {l r : List α} {lo hi : K} (h : maskSelect (inWindow lo hi ts) l = .ok r) :
    (ts.filter fun x => decide (lo ≤ x) && decide (x < hi)).zip r =
      (ts.zip l).filter fun p => decide (lo ≤ p.1) && decide (p.1 < hi) := by
  obtain ⟨hl, rfl⟩ := maskSelect_ok h
  unfold inWindow at hl ⊢
  rw [List.length_map] at hl
  clear h
  induction ts generalizing l with
  | nil => simp
  | cons x ts ih =>
    cases l with
    | nil => simp at hl
    | cons y l =>
      have := ih (l := l) (by simpa using hl)
      simp only [List.map_cons, List.zip_cons_cons, List.filterMap_cons, List.filter_cons]
      by_cases hx : (decide (lo ≤ x) && decide (x < hi)) = true
      · simp only [hx, if_true, List.zip_cons_cons, this]
      · rw [Bool.not_eq_true] at hx
        simp only [hx, Bool.false_eq_true, if_false, this]

/-- **C63.**  What is compared is what each method measured at its own output times in the common range: eccentricity with
eccentricity and mean anomaly with mean anomaly. -/
theorem C63_values {o1 o2 : Measured K} {tmin tmax : Option K} {r : Errors K} (h : computeErrors pi o1 o2 tmin tmax = .ok r) :
    ∃ lo hi, lo = max (max o1.tmin o2.tmin) (tmin.getD o1.tmin) ∧ hi = min (min o1.tmax o2.tmax) (tmax.getD o1.tmax) ∧
      ∀ (o : Measured K) (ecc ano : List K), (o, ecc, ano) ∈ [(o1, r.ecc1, r.meanAno1), (o2, r.ecc2, r.meanAno2)] →
        let ts := o.trefOut.filter (fun x => decide (lo ≤ x) && decide (x < hi))
        ecc.length = ts.length ∧ ano.length = ts.length ∧
        ts.zip ecc = (o.trefOut.zip o.ecc).filter (fun p => decide (lo ≤ p.1) && decide (p.1 < hi)) ∧
        ts.zip ano = (o.trefOut.zip o.meanAno).filter (fun p => decide (lo ≤ p.1) && decide (p.1 < hi)) := by
  obtain ⟨lo, hi, t2, e1, _, e2, e3, e4, e5, e6, e7, e8, e9, e10⟩ := computeErrors_ok h
  obtain ⟨q1, q2⟩ := commonWindow_ok e1
  refine ⟨lo, hi, q1, q2, fun o ecc ano ho => ?_⟩
  simp only [List.mem_cons, Prod.mk.injEq, List.not_mem_nil, or_false] at ho
  rcases ho with ⟨rfl, rfl, rfl⟩ | ⟨rfl, rfl, rfl⟩
  · simp only [← maskSelect_filter e2]
    refine ⟨maskSelect_length e5 e2, maskSelect_length e7 e2, ?_, ?_⟩
    · rw [maskSelect_filter e2]; exact maskSelect_zip e5
    · rw [maskSelect_filter e2]; exact maskSelect_zip e7
  · simp only [← maskSelect_filter e3]
    refine ⟨maskSelect_length e6 e3, maskSelect_length e8 e3, ?_, ?_⟩
    · rw [maskSelect_filter e3]; exact maskSelect_zip e6
    · rw [maskSelect_filter e3]; exact maskSelect_zip e8

theorem zipWith_nonneg {a b : List K} {x : K} (hx : x ∈ List.zipWith (fun x y => |x - y|) a b) : 0 ≤ x := by
  obtain ⟨i, hi⟩ := List.getElem?_of_mem hx
  rw [List.getElem?_zipWith_eq_some] at hi
  obtain ⟨_, _, _, _, rfl⟩ := hi
  exact abs_nonneg _

/-- **C63.**  Errors are nonnegative. -/
theorem C63_nonneg {o1 o2 : Measured K} {tmin tmax : Option K} {r : Errors K} (h : computeErrors pi o1 o2 tmin tmax = .ok r) :
    (∀ x ∈ r.ecc, 0 ≤ x) ∧ ∀ x ∈ r.meanAno, 0 ≤ x := by
  obtain ⟨_, _, _, _, _, _, _, _, _, _, _, _, e9, e10⟩ := computeErrors_ok h
  rw [e9, e10]
  exact ⟨fun x hx => zipWith_nonneg hx, fun x hx => zipWith_nonneg hx⟩

/-- **C63.**  The eccentricity errors are the absolute differences of the measured eccentricities at the common times. -/
theorem C63_ecc {o1 o2 : Measured K} {tmin tmax : Option K} {r : Errors K} (h : computeErrors pi o1 o2 tmin tmax = .ok r)
    (i : ℕ) (x y : K) (hx : r.ecc1[i]? = some x) (hy : r.ecc2[i]? = some y) : r.ecc[i]? = some |x - y| := by
  obtain ⟨_, _, _, _, _, _, _, _, _, _, _, _, e9, _⟩ := computeErrors_ok h
  rw [e9, List.getElem?_zipWith_eq_some]
  exact ⟨x, y, hx, hy, rfl⟩

theorem zipWith_comm_abs (a b : List K) : List.zipWith (fun x y => |x - y|) a b = List.zipWith (fun x y => |x - y|) b a := by
  rw [List.zipWith_comm]
  congr 1
  funext x y
  exact abs_sub_comm _ _

theorem zipWith_self_abs (a : List K) : List.zipWith (fun x y => |x - y|) a a = a.map fun _ => 0 := by
  induction a with
  | nil => rfl
  | cons x a ih => simp [ih]

/-- **C63.**  Exchanging the methods exchanges what was measured and leaves the errors as they are (if the comparison succeeds both
ways: numpy's test whether times agree is not symmetric). -/
theorem C63_symmetric {o1 o2 : Measured K} {tmin tmax : Option K} {r r' : Errors K}
    (h : computeErrors pi o1 o2 tmin tmax = .ok r) (h' : computeErrors pi o2 o1 tmin tmax = .ok r') :
    r'.ecc = r.ecc ∧ r'.meanAno = r.meanAno ∧ r'.ecc1 = r.ecc2 ∧ r'.ecc2 = r.ecc1 ∧ r'.meanAno1 = r.meanAno2 ∧
      r'.meanAno2 = r.meanAno1 := by
  obtain ⟨lo, hi, t2, e1, _, e2, e3, e4, e5, e6, e7, e8, e9, e10⟩ := computeErrors_ok h
  obtain ⟨lo', hi', t2', f1, _, f2, f3, f4, f5, f6, f7, f8, f9, f10⟩ := computeErrors_ok h'
  have hw : commonWindow o2 o1 tmin tmax = commonWindow o1 o2 tmin tmax := by
    unfold commonWindow
    rw [max_comm o2.tmin, min_comm o2.tmax]
  rw [hw, e1] at f1
  cases f1
  have g1 : r'.ecc1 = r.ecc2 := by rw [e6] at f5; exact (Except.ok.inj f5).symm
  have g2 : r'.ecc2 = r.ecc1 := by rw [e5] at f6; exact (Except.ok.inj f6).symm
  have g3 : r'.meanAno1 = r.meanAno2 := by rw [e8] at f7; exact (Except.ok.inj f7).symm
  have g4 : r'.meanAno2 = r.meanAno1 := by rw [e7] at f8; exact (Except.ok.inj f8).symm
  refine ⟨?_, ?_, g1, g2, g3, g4⟩
  · rw [f9, e9, g1, g2, zipWith_comm_abs]
  · rw [f10, e10, g3, g4, zipWith_comm_abs]

/-- **C63.**  Methods that measured the same at the common times have zero errors. -/
theorem C63_agree {o1 o2 : Measured K} {tmin tmax : Option K} {r : Errors K} (h : computeErrors pi o1 o2 tmin tmax = .ok r) :
    (r.ecc1 = r.ecc2 → ∀ x ∈ r.ecc, x = 0) ∧ (r.meanAno1 = r.meanAno2 → ∀ x ∈ r.meanAno, x = 0) := by
  obtain ⟨_, _, _, _, _, _, _, _, _, _, _, _, e9, e10⟩ := computeErrors_ok h
  refine ⟨fun he x hx => ?_, fun he x hx => ?_⟩
  · rw [e9, he, zipWith_self_abs] at hx
    obtain ⟨_, _, rfl⟩ := List.mem_map.mp hx
    rfl
  · rw [e10, he, zipWith_self_abs] at hx
    obtain ⟨_, _, rfl⟩ := List.mem_map.mp hx
    rfl

/-- **C63, the part that holds for mean anomalies.**  Every mean anomaly error is the absolute difference up to a multiple of `2 pi`.
If the methods agree within `d` on the circle at every common time, start within `d` of each other (not only on the circle), and
the mean anomaly advances by at most `s` between reference times, `s + d < pi`, every error is at most `d`: with `d = 0`, zero.
Missing: the same when the two mean anomalies at the first common time are on two sides of `2 pi` (`C63_wrap_violation`). -/
theorem C63_mean_anomaly_partial (hpi : 0 < pi) {o1 o2 : Measured K} {tmin tmax : Option K} {r : Errors K}
    (h : computeErrors pi o1 o2 tmin tmax = .ok r) :
    (∀ (i : ℕ) (x y : K), r.meanAno1[i]? = some x → r.meanAno2[i]? = some y →
      ∃ (k : ℤ), r.meanAno[i]? = some |x - y + 2 * pi * k|) ∧
    ∀ s d : K, 0 ≤ d → s + d < pi →
      (∀ (i : ℕ) (x y : K), r.meanAno1[i]? = some x → r.meanAno1[i + 1]? = some y → ∃ k : ℤ, |y - x + 2 * pi * k| ≤ s) →
      (∀ (i : ℕ) (x y : K), r.meanAno2[i]? = some x → r.meanAno2[i + 1]? = some y → ∃ k : ℤ, |y - x + 2 * pi * k| ≤ s) →
      (∀ (i : ℕ) (x y : K), r.meanAno1[i]? = some x → r.meanAno2[i]? = some y → ∃ k : ℤ, |x - y + 2 * pi * k| ≤ d) →
      (∀ x y : K, r.meanAno1[0]? = some x → r.meanAno2[0]? = some y → |x - y| ≤ d) →
      ∀ x ∈ r.meanAno, x ≤ d := by
  obtain ⟨_, _, _, _, _, _, _, _, _, _, _, _, _, e10⟩ := computeErrors_ok h
  constructor
  · intro i x y hx hy
    obtain ⟨X, k1, h1, rfl⟩ := (C63_unwrap hpi r.meanAno1).2.2.1 i x hx
    obtain ⟨Y, k2, h2, rfl⟩ := (C63_unwrap hpi r.meanAno2).2.2.1 i y hy
    refine ⟨k1 - k2, ?_⟩
    rw [e10, List.getElem?_zipWith_eq_some]
    refine ⟨_, _, h1, h2, ?_⟩
    congr 1
    push_cast
    ring
  · intro s d hd hsd ha hb hab h0 x hx
    rw [e10] at hx
    obtain ⟨i, hi⟩ := List.getElem?_of_mem hx
    rw [List.getElem?_zipWith_eq_some] at hi
    obtain ⟨X, Y, hX, hY, rfl⟩ := hi
    exact unwrap_close hpi hsd hd ha hb hab h0 i X Y hX hY

/-- **C63 fails for mean anomalies on two sides of `2 pi` at the first common time**: mean anomalies `x` and `2 pi - x`, `2 x` apart on
the circle, are reported to be `2 pi - 2 x` apart. -/
theorem C63_wrap_violation {x : K} (hx : x < pi) (t0 e : K) (ht : 0 < t0) :
    ∃ o1 o2 : Measured K, o1.meanAno = [x] ∧ o2.meanAno = [2 * pi - x] ∧
      ∃ r, computeErrors pi o1 o2 none none = .ok r ∧ r.meanAno = [2 * pi - 2 * x] := by
  refine ⟨⟨[t0], 0, t0 + 1, [t0], [e], [x]⟩, ⟨[t0], 0, t0 + 1, [t0], [e], [2 * pi - x]⟩, rfl, rfl, ?_⟩
  have hm : ∀ {α : Type} (y : α), maskSelect (inWindow (max 0 0) (min (t0 + 1) (t0 + 1)) [t0]) [y] = .ok [y] := by
    intro α y
    unfold maskSelect inWindow
    simp [ht.le]
  have ha : assertClose [t0] [t0] = .ok () := by
    unfold assertClose
    have : (0 : K) ≤ 1 / 10 ^ 7 * |t0| := by positivity
    simp only [List.zip_cons_cons, List.zip_nil_right, List.all_cons, List.all_nil, sub_self, abs_zero, this, decide_true, Bool.and_true]
    exact if_pos (by simp)
  refine ⟨⟨[t0], [|e - e|], [|x - (2 * pi - x)|], [e], [e], [x], [2 * pi - x]⟩, ?_, ?_⟩
  · unfold computeErrors commonWindow
    simp only [ha, ok_bind, pure, Except.pure, hm]
    rfl
  · dsimp only
    rw [abs_sub_comm, abs_of_nonneg (by linarith)]
    congr 1
    ring

/-- C63: a comparison over three times, the third outside the common range; mean anomalies agree although one has passed `2 pi`. -/
example : (computeErrors (3 : ℚ) ⟨[1, 2, 3], 0, 5, [1, 2, 3], [1 / 2, 1 / 3, 1 / 4], [5, 1, 3]⟩
      ⟨[1, 2, 3], 1, 3, [1, 2, 3], [1 / 2, 1 / 2, 1 / 2], [5, 7, 9]⟩ none none).toOption =
    some ⟨[1, 2], [0, 1 / 6], [0, 0], [1 / 2, 1 / 3], [1 / 2, 1 / 2], [5, 1], [5, 7]⟩ := by decide +kernel

end errors

/-! ### C64 -/

section truncate
variable {C : Type}

/-- **C64 fails.**  `truncate_waveform_by_flow` never returns: it raises `KeyError` for every available method, whatever the waveform
(the method is constructed without reference time or frequency), and other exceptions for an unknown method or no data. -/
theorem C64_never_violation {O : Type} (build : MethodClass → Domain × Val K → List K → Dict LM (List C) → Py O)
    (find : O → Py (List K × List K)) (data : Option (List K × Dict LM (List C))) (flow : K) (mMax : Option ℤ) (method : String) :
    (∀ r, truncateByFlow build find data flow mMax method ≠ .ok r) ∧
    (data.isSome = true → availableMethods.has method = true →
      truncateByFlow build find data flow mMax method = .error .keyError) := by
  have hi : initReference (none : Option (Val K)) none "inertial" = .error .keyError := rfl
  unfold truncateByFlow
  rw [hi]
  constructor
  · intro r h
    split at h
    · cases h
    · split at h <;> cases h
  · intro hd hm
    cases data with
    | none => cases hd
    | some d =>
      unfold Dict.has at hm
      cases hg : availableMethods.get? method with
      | none => rw [hg] at hm; cases hm
      | some c => rfl

/-- **C64, the part that holds.**  The cut itself, given the frequency through the pericenters: it is made at the first of those times
at which the frequency (times `m / 2`) reaches `flow`; every earlier one is below; exactly the samples from there on are kept, in
times and modes alike.  Missing: that the function gets there (`C64_never_violation`). -/
theorem C64_cut_partial {t t' tp fp : List K} {modes modes' : Dict LM (List C)} {flow tlow : K} {m : ℤ} (hs : t.Pairwise (· < ·))
    (h : truncateAt t tp fp modes flow m = .ok (tlow, t', modes')) :
    ∃ (i : ℕ) (f : K), tp[i]? = some tlow ∧ fp[i]? = some f ∧ flow ≤ f * ((m : K) / 2) ∧
      (∀ (j : ℕ) (f' : K), j < i → fp[j]? = some f' → f' * ((m : K) / 2) < flow) ∧
      ∃ k : ℕ, t' = t.drop k ∧ (∀ x ∈ t.take k, x < tlow) ∧ (∀ x ∈ t.drop k, tlow ≤ x) ∧
        modes' = modes.map fun p => (p.1, p.2.drop k) := by
  unfold truncateAt at h
  obtain ⟨idx, e1, h1⟩ := bind_ok h
  obtain ⟨tl, e2, h2⟩ := bind_ok h1
  obtain ⟨md, e3, h3⟩ := bind_ok h2
  obtain ⟨tt, e4, h4⟩ := bind_ok h3
  cases h4
  have hw : ∃ rest, npWhere (fun f => decide (f * ((m : K) / 2) ≥ flow)) fp = idx :: rest := by
    split at e1
    · cases e1
    · rename_i i rest hr
      cases e1
      exact ⟨rest, hr⟩
  obtain ⟨rest, hw⟩ := hw
  have hmem : idx ∈ npWhere (fun f => decide (f * ((m : K) / 2) ≥ flow)) fp := by rw [hw]; exact List.mem_cons_self
  obtain ⟨hidx, hf⟩ := (mem_npWhere _ _ _).mp hmem
  -- the mask of an increasing time array
  have hk : ∃ k, k ≤ t.length ∧ (∀ x ∈ t.take k, x < tlow) ∧ (∀ x ∈ t.drop k, tlow ≤ x) ∧
      ∀ {α : Type} (l : List α), l.length = t.length →
        ((l.zip (t.map fun x => decide (x ≥ tlow))).filterMap fun p => if p.2 then some p.1 else none) = l.drop k := by
    clear e2 h h1 h2 h3 e3 e4
    induction t with
    | nil =>
      refine ⟨0, le_refl _, by simp, by simp, fun l hl => ?_⟩
      rw [List.length_nil, List.length_eq_zero_iff] at hl
      subst hl
      rfl
    | cons x t ih =>
      rw [List.pairwise_cons] at hs
      by_cases hx : tlow ≤ x
      · refine ⟨0, by simp, by simp, fun y hy => ?_, fun {α} l hl => ?_⟩
        · rcases List.mem_cons.mp hy with rfl | q
          · exact hx
          · exact le_trans hx (hs.1 y q).le
        · have hall : ∀ y ∈ x :: t, tlow ≤ y := by
            intro y hy
            rcases List.mem_cons.mp hy with rfl | q
            · exact hx
            · exact le_trans hx (hs.1 y q).le
          rw [List.drop_zero]
          generalize x :: t = u at hl hall
          induction u generalizing l with
          | nil =>
            rw [List.length_nil, List.length_eq_zero_iff] at hl
            subst hl
            rfl
          | cons y u ihu =>
            rcases l with _ | ⟨z, l⟩
            · simp at hl
            · rw [List.map_cons, List.zip_cons_cons, List.filterMap_cons]
              have : decide (y ≥ tlow) = true := decide_eq_true (hall y List.mem_cons_self)
              rw [this]
              simp only [if_true]
              rw [ihu l (by simpa using hl) fun w hw => hall w (List.mem_cons_of_mem _ hw)]
      · obtain ⟨k, k1, k2, k3, k4⟩ := ih hs.2
        push Not at hx
        refine ⟨k + 1, by simpa using k1, fun y hy => ?_, fun y hy => ?_, fun {α} l hl => ?_⟩
        · rw [List.take_succ_cons] at hy
          rcases List.mem_cons.mp hy with rfl | q
          · exact hx
          · exact k2 y q
        · rw [List.drop_succ_cons] at hy
          exact k3 y hy
        · rcases l with _ | ⟨z, l⟩
          · simp at hl
          · rw [List.map_cons, List.zip_cons_cons, List.filterMap_cons, List.drop_succ_cons]
            have : decide (x ≥ tlow) = false := decide_eq_false (not_le.mpr hx)
            rw [this]
            simp only [Bool.false_eq_true, if_false]
            exact k4 l (by simpa using hl)
  obtain ⟨k, _, k2, k3, k4⟩ := hk
  refine ⟨idx, fp[idx], pyGet_getElem? e2, List.getElem?_eq_getElem hidx, by simpa using hf, fun j f' hj hf' => ?_, k, ?_, k2, k3, ?_⟩
  · by_contra hc
    push Not at hc
    obtain ⟨hj', rfl⟩ := List.getElem?_eq_some_iff.mp hf'
    have hmj : j ∈ npWhere (fun f => decide (f * ((m : K) / 2) ≥ flow)) fp := (mem_npWhere _ _ _).mpr ⟨hj', by simpa using hc⟩
    have hsorted := npWhere_sorted (fun f => decide (f * ((m : K) / 2) ≥ flow)) fp
    rw [hw] at hmj hsorted
    rcases List.mem_cons.mp hmj with q | q
    · omega
    · have := (List.pairwise_cons.mp hsorted).1 j q
      omega
  · obtain ⟨_, rfl⟩ := maskSelect_ok e4
    exact k4 t rfl
  · obtain ⟨hl, hg⟩ := mapM_getElem? e3
    apply List.ext_getElem?
    intro i
    rw [List.getElem?_map]
    cases hi : modes[i]? with
    | none =>
      rw [List.getElem?_eq_none_iff] at hi
      rw [List.getElem?_eq_none (by omega)]
      rfl
    | some p =>
      obtain ⟨y, e, hy⟩ := hg i p hi
      obtain ⟨h', e5, e6⟩ := bind_ok e
      cases e6
      obtain ⟨hlen, rfl⟩ := maskSelect_ok e5
      rw [hy, k4 p.2 (by rw [← hlen]; simp)]
      rfl

example : (truncateAt (C := ℚ) ([0, 1, 2, 3, 4, 5] : List ℚ) [1, 2, 3, 4] [1, 2, 3, 4] [((2, 2), [10, 11, 12, 13, 14, 15])] (5 / 2) 2
      ).toOption = some ((3 : ℚ), [3, 4, 5], [((2, 2), [13, 14, 15])]) := by decide +kernel

end truncate

end GwEcc.Compare
