import Verif.Spec.Postprocess
import Verif.Lemmas.Extrema
import Mathlib.Tactic.Ring
import Mathlib.Tactic.Linarith
import Mathlib.Order.Lattice

/-!
# Lemmas on post-processing and on `parse_samples`
-/

namespace GwEcc.Post

/-! ## Characters -/

/-- Characters of a typed selection. -/
def Plain (c : Char) : Prop := c.isDigit = true ∨ c = '-' ∨ c = ':' ∨ c = ','

theorem digit_ne {c : Char} (h : c.isDigit = true) (d : Char) (hd : d.isDigit = false) : c ≠ d := by
  rintro rfl; rw [h] at hd; cases hd

theorem Plain.not_space {c : Char} (h : Plain c) : c.isWhitespace = false := by
  rcases h with h | rfl | rfl | rfl
  · unfold Char.isWhitespace
    simp [digit_ne h ' ' rfl, digit_ne h '\t' rfl, digit_ne h '\r' rfl, digit_ne h '\n' rfl]
  · rfl
  · rfl
  · rfl

theorem Plain.lower {c : Char} (h : Plain c) : c.toLower = c := by
  rcases h with h | rfl | rfl | rfl
  · unfold Char.toLower
    rw [dif_neg]
    rintro ⟨h1, _⟩
    unfold Char.isDigit at h
    simp only [Bool.and_eq_true, decide_eq_true_eq] at h
    have h2 := h.2
    have h3 : 'A'.val ≤ '9'.val := UInt32.le_trans h1 h2
    revert h3; decide
  · rfl
  · rfl
  · rfl

theorem dropWhile_plain {cs : List Char} (h : ∀ c ∈ cs, Plain c) : cs.dropWhile Char.isWhitespace = cs := by
  cases cs with
  | nil => rfl
  | cons a l => rw [List.dropWhile_cons_of_neg]; rw [(h a (by simp)).not_space]; decide

theorem strip_plain {cs : List Char} (h : ∀ c ∈ cs, Plain c) : strip cs = cs := by
  unfold strip
  rw [dropWhile_plain h, dropWhile_plain (fun c hc => h c (List.mem_reverse.mp hc)), List.reverse_reverse]

theorem lower_plain {cs : List Char} (h : ∀ c ∈ cs, Plain c) : cs.map Char.toLower = cs := by
  conv_rhs => rw [← List.map_id cs]
  exact List.map_congr_left fun c hc => (h c hc).lower

theorem plain_ne_word {cs : List Char} (h : ∀ c ∈ cs, Plain c) : ¬ (cs = "all".toList ∨ cs = "none".toList) := by
  have key : ∀ d : Char, d ∈ cs → d.isDigit = false → d ≠ '-' → d ≠ ':' → d ≠ ',' → False := by
    intro d hd h1 h2 h3 h4
    rcases h d hd with g | g | g | g
    · rw [h1] at g; cases g
    · exact h2 g
    · exact h3 g
    · exact h4 g
  rintro (rfl | rfl)
  · exact key 'a' (by decide) rfl (by decide) (by decide) (by decide)
  · exact key 'n' (by decide) rfl (by decide) (by decide) (by decide)

/-! ## Integers -/

/-- The characters of a typed integer. -/
theorem typed_cases (n : ℤ) :
    (∃ m : ℕ, n = m ∧ typed n = Nat.toDigits 10 m) ∨ (∃ m : ℕ, n = -(m : ℤ) ∧ typed n = '-' :: Nat.toDigits 10 m) := by
  cases n with
  | ofNat m =>
    left
    refine ⟨m, rfl, ?_⟩
    have : toString (Int.ofNat m) = Nat.repr m := rfl
    unfold typed
    rw [this, Nat.toList_repr]
  | negSucc m =>
    right
    refine ⟨m + 1, rfl, ?_⟩
    have : toString (Int.negSucc m) = "-" ++ Nat.repr (m + 1) := rfl
    unfold typed
    rw [this, String.toList_append, Nat.toList_repr]
    rfl

theorem digits_isDigit {m : ℕ} {c : Char} (h : c ∈ Nat.toDigits 10 m) : c.isDigit = true :=
  Nat.isDigit_of_mem_toDigits (by decide) (by decide) h

theorem typed_chars {n : ℤ} {c : Char} (h : c ∈ typed n) : c.isDigit = true ∨ c = '-' := by
  rcases typed_cases n with ⟨m, _, hm⟩ | ⟨m, _, hm⟩
  · rw [hm] at h; exact Or.inl (digits_isDigit h)
  · rw [hm] at h
    rcases List.mem_cons.mp h with h | h
    · exact Or.inr h
    · exact Or.inl (digits_isDigit h)

theorem typed_plain {n : ℤ} {c : Char} (h : c ∈ typed n) : Plain c := by
  rcases typed_chars h with h | h
  · exact Or.inl h
  · exact Or.inr (Or.inl h)

theorem typed_no_sep (n : ℤ) : ':' ∉ typed n ∧ ',' ∉ typed n := by
  constructor
  · intro h
    rcases typed_chars h with h | h
    · revert h; decide
    · revert h; decide
  · intro h
    rcases typed_chars h with h | h
    · revert h; decide
    · revert h; decide

theorem typed_ne_nil (n : ℤ) : typed n ≠ [] := by
  rcases typed_cases n with ⟨m, _, hm⟩ | ⟨m, _, hm⟩
  · rw [hm]; exact Nat.toDigits_ne_nil
  · rw [hm]; simp

theorem pyNat_toDigits (m : ℕ) : pyNat (Nat.toDigits 10 m) = .ok m := by
  unfold pyNat
  have hs : (Nat.toDigits 10 m).splitOn '_' = [Nat.toDigits 10 m] :=
    List.splitOn_eq_singleton Nat.underscore_not_in_toDigits
  simp only [hs]
  have : ([Nat.toDigits 10 m].all fun g => !g.isEmpty && g.all Char.isDigit) = true := by
    have h1 : (Nat.toDigits 10 m).isEmpty = false := by
      cases h : Nat.toDigits 10 m with
      | nil => exact absurd h Nat.toDigits_ne_nil
      | cons => rfl
    have h2 : (Nat.toDigits 10 m).all Char.isDigit = true := by
      rw [List.all_eq_true]; exact fun c hc => digits_isDigit hc
    simp [h1]
    simpa using h2
  rw [if_pos this]
  simp

theorem pyInt_typed (n : ℤ) : pyInt (typed n) = .ok n := by
  unfold pyInt
  rw [strip_plain (fun c hc => typed_plain hc)]
  rcases typed_cases n with ⟨m, hn, hm⟩ | ⟨m, hn, hm⟩
  · rw [hm]
    have hd : ∀ c ∈ Nat.toDigits 10 m, c.isDigit = true := fun c hc => digits_isDigit hc
    split
    · next h => rw [h] at hd; exact absurd (hd '-' (by simp)) (by decide)
    · next h => rw [h] at hd; exact absurd (hd '+' (by simp)) (by decide)
    · rw [pyNat_toDigits, hn]; rfl
  · rw [hm]
    simp only [pyNat_toDigits]
    rw [hn]; rfl

/-! ## Ranges -/

theorem mem_pyRange {start stop step : ℤ} {l : List ℤ} (h : pyRange start stop step = .ok l) (x : ℤ) :
    x ∈ l ↔ step ∣ (x - start) ∧ (if 0 < step then start ≤ x ∧ x < stop else stop < x ∧ x ≤ start) := by
  unfold pyRange at h
  split at h
  · cases h
  · next h0 =>
    simp only [Except.ok.injEq] at h
    subst h
    simp only [List.mem_map, List.mem_range]
    by_cases hp : 0 < step
    · simp only [hp, if_true]
      constructor
      · rintro ⟨i, hi, rfl⟩
        refine ⟨⟨i, by ring⟩, ?_, ?_⟩
        · nlinarith [Int.natCast_nonneg i]
        · have h1 : (i : ℤ) < (stop - start + step - 1) / step := by omega
          have h2 : (i : ℤ) + 1 ≤ (stop - start + step - 1) / step := h1
          have h3 := (Int.le_ediv_iff_mul_le hp).mp h2
          nlinarith
      · rintro ⟨⟨k, hk⟩, h1, h2⟩
        have hk0 : 0 ≤ k := by nlinarith
        refine ⟨k.toNat, ?_, ?_⟩
        · have h3 : k + 1 ≤ (stop - start + step - 1) / step := by
            rw [Int.le_ediv_iff_mul_le hp]; nlinarith
          omega
        · rw [Int.toNat_of_nonneg hk0]; linarith
    · have hn : 0 < -step := by omega
      simp only [hp, if_false]
      constructor
      · rintro ⟨i, hi, rfl⟩
        refine ⟨⟨i, by ring⟩, ?_, ?_⟩
        · have h1 : (i : ℤ) < (start - stop - step - 1) / (-step) := by omega
          have h2 : (i : ℤ) + 1 ≤ (start - stop - step - 1) / (-step) := h1
          have h3 := (Int.le_ediv_iff_mul_le hn).mp h2
          nlinarith
        · nlinarith [Int.natCast_nonneg i]
      · rintro ⟨⟨k, hk⟩, h1, h2⟩
        have hk0 : 0 ≤ k := by nlinarith
        refine ⟨k.toNat, ?_, ?_⟩
        · have h3 : k + 1 ≤ (start - stop - step - 1) / (-step) := by
            rw [Int.le_ediv_iff_mul_le hn]; nlinarith
          omega
        · rw [Int.toNat_of_nonneg hk0]; linarith

theorem sorted_pyRange {start stop step : ℤ} {l : List ℤ} (h : pyRange start stop step = .ok l) :
    l.Pairwise (fun x y => if 0 < step then x < y else y < x) := by
  unfold pyRange at h
  split at h
  · cases h
  · next h0 =>
    simp only [Except.ok.injEq] at h
    subst h
    rw [List.pairwise_map]
    refine List.Pairwise.imp ?_ List.pairwise_lt_range
    intro a b hab
    have : (a : ℤ) < b := by exact_mod_cast hab
    split
    · nlinarith
    · have : step < 0 := by omega
      nlinarith

/-! ## The parser on typed text -/

theorem parse_plain {cs : List Char} (h : ∀ c ∈ cs, Plain c) :
    parseSamples (some cs) =
      if ':' ∈ cs then (parseRange (cs.splitOn ':')).map some
      else if ',' ∈ cs then
        (((cs.splitOn ',').filter fun x => !(strip x).isEmpty).mapM fun x => pyInt (strip x)).map some
      else (pyInt cs).map fun n => some [n] := by
  unfold parseSamples
  simp only
  rw [strip_plain h, lower_plain h, if_neg (plain_ne_word h)]

theorem splitOn_two {a b : List Char} (ha : ':' ∉ a) (hb : ':' ∉ b) : (a ++ ':' :: b).splitOn ':' = [a, b] := by
  rw [List.splitOn_append_cons_self_of_not_mem ha, List.splitOn_eq_singleton hb]

theorem splitOn_three {a b c : List Char} (ha : ':' ∉ a) (hb : ':' ∉ b) (hc : ':' ∉ c) :
    (a ++ ':' :: (b ++ ':' :: c)).splitOn ':' = [a, b, c] := by
  rw [List.splitOn_append_cons_self_of_not_mem ha, splitOn_two hb hc]

theorem mapM_ok {α β : Type} {f : α → Py β} {g : α → β} {l : List α} (h : ∀ a ∈ l, f a = .ok (g a)) :
    l.mapM f = .ok (l.map g) := by
  induction l with
  | nil => rfl
  | cons a l ih =>
    rw [List.mapM_cons, h a (by simp), ih (fun b hb => h b (by simp [hb]))]
    rfl

theorem mem_intersperse_comma {a : List Char} {ls : List (List Char)} :
    a ∈ List.intersperse [','] ls → a = [','] ∨ a ∈ ls := by
  induction ls using List.twoStepInduction with
  | nil => intro h; simp at h
  | singleton x => intro h; simp at h; exact Or.inr (by simp [h])
  | cons_cons x y ls ih1 ih2 =>
    intro h
    rw [List.intersperse_cons_cons] at h
    simp only [List.mem_cons] at h
    rcases h with h | h | h
    · exact Or.inr (by simp [h])
    · exact Or.inl h
    · rcases ih2 y h with h | h
      · exact Or.inl h
      · right; simp only [List.mem_cons] at h ⊢; tauto

/-! ## Maximum and minimum -/

theorem foldl_max_le {K : Type} [LinearOrder K] (l : List K) (a x : K) :
    l.foldl max a ≤ x ↔ a ≤ x ∧ ∀ b ∈ l, b ≤ x := by
  induction l generalizing a with
  | nil => simp
  | cons b l ih => rw [List.foldl_cons, ih, max_le_iff]; simp only [List.mem_cons, forall_eq_or_imp]; tauto

theorem le_foldl_min {K : Type} [LinearOrder K] (l : List K) (a x : K) :
    x ≤ l.foldl min a ↔ x ≤ a ∧ ∀ b ∈ l, x ≤ b := by
  induction l generalizing a with
  | nil => simp
  | cons b l ih => rw [List.foldl_cons, ih, le_min_iff]; simp only [List.mem_cons, forall_eq_or_imp]; tauto

end GwEcc.Post
