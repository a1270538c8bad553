import Verif.Lemmas.PyRel

/-!
# Relating runs at two debug levels

`Lvl quiet R x y`: the run `x` at some level against the run `y` at level 0.  Both return related values, or both raise the same
exception, or (if the level of `x` is not a quiet one) `x` raises.
-/

namespace GwEcc

/-- The levels at which messages are at most warnings. -/
def Quiet (level : ℤ) : Prop := level = -1 ∨ level = 0 ∨ level = 1

inductive Lvl (quiet : Prop) {α β : Type} (R : α → β → Prop) : Py α → Py β → Prop
  | ok {a : α} {b : β} (h : R a b) : Lvl quiet R (.ok a) (.ok b)
  | error (e : Err) : Lvl quiet R (.error e) (.error e)
  | strict (h : ¬ quiet) (e : Err) (y : Py β) : Lvl quiet R (.error e) y

namespace Lvl

variable {q : Prop} {α β γ δ : Type}

theorem bind {R : α → β → Prop} {S : γ → δ → Prop} {x : Py α} {y : Py β} {f : α → Py γ} {g : β → Py δ}
    (h : Lvl q R x y) (hf : ∀ a b, R a b → Lvl q S (f a) (g b)) : Lvl q S (x >>= f) (y >>= g) := by
  cases h with
  | ok h => exact hf _ _ h
  | error e => exact .error e
  | strict h e y => exact .strict h e _

theorem refl {R : α → α → Prop} (hR : ∀ a, R a a) (x : Py α) : Lvl q R x x := by
  cases x with
  | ok a => exact .ok (hR a)
  | error e => exact .error e

theorem rfl' (x : Py α) : Lvl q Eq x x := refl (fun _ => rfl) x

theorem mono {R S : α → β → Prop} {x : Py α} {y : Py β} (h : Lvl q R x y) (hs : ∀ a b, R a b → S a b) : Lvl q S x y := by
  cases h with
  | ok h => exact .ok (hs _ _ h)
  | error e => exact .error e
  | strict h e y => exact .strict h e _

theorem ite {R : α → β → Prop} {P : Prop} [Decidable P] {x x' : Py α} {y y' : Py β}
    (h1 : P → Lvl q R x y) (h2 : ¬ P → Lvl q R x' y') : Lvl q R (if P then x else x') (if P then y else y') := by
  by_cases hp : P
  · rw [if_pos hp, if_pos hp]; exact h1 hp
  · rw [if_neg hp, if_neg hp]; exact h2 hp

/-- `x` followed by something the values of which do not matter, against nothing. -/
theorem skip {S : γ → δ → Prop} {x : Py α} {f : α → Py γ} {z : Py δ} (h : Lvl q (fun _ (_ : Unit) => True) x (.ok ()))
    (hf : ∀ a, Lvl q S (f a) z) : Lvl q S (x >>= f) z := by
  cases h with
  | ok h => exact hf _
  | strict h e y => exact .strict h e _

/-- Mapping a function that may warn over a list. -/
theorem mapM {f g : α → Py β} : ∀ l : List α, (∀ x ∈ l, Lvl q Eq (f x) (g x)) → Lvl q Eq (l.mapM f) (l.mapM g)
  | [], _ => .ok rfl
  | a :: l, h => by
    rw [List.mapM_cons, List.mapM_cons]
    refine bind (h a (by simp)) ?_
    rintro b _ rfl
    refine bind (mapM l fun x hx => h x (by simp [hx])) ?_
    rintro r _ rfl
    exact .ok rfl

end Lvl

/-- A message is at most a warning at a quiet level. -/
theorem debugMessage_lvl (L : ℤ) (i v : Bool) : Lvl (Quiet L) (fun _ (_ : Unit) => True) (debugMessage L i v) (.ok ()) := by
  unfold debugMessage
  by_cases hq : Quiet L
  · have h2 : L ≠ 2 := by unfold Quiet at hq; omega
    have hr : -1 ≤ L ∧ L ≤ 2 := by unfold Quiet at hq; omega
    repeat' split
    all_goals first | exact .ok trivial | (exfalso; unfold Quiet at hq; omega)
  · split
    · exact .strict hq _ _
    · split
      · exact .ok trivial
      · split
        · exact .strict hq _ _
        · split <;> exact .ok trivial

/-- At level 0 a message never raises. -/
theorem debugMessage_zero (i v : Bool) : ∃ o, debugMessage 0 i v = .ok o := by
  cases i <;> cases v <;> exact ⟨_, rfl⟩

/-- A message at one level against the same message at level 0. -/
theorem message_bind {γ δ : Type} {S : γ → δ → Prop} {L : ℤ} {i v : Bool} {f : Outcome → Py γ} {g : Outcome → Py δ}
    (hf : ∀ a b, Lvl (Quiet L) S (f a) (g b)) : Lvl (Quiet L) S (debugMessage L i v >>= f) (debugMessage 0 i v >>= g) := by
  obtain ⟨o, ho⟩ := debugMessage_zero i v
  rw [ho, ok_bind]
  exact Lvl.skip (debugMessage_lvl L i v) fun a => hf a o

variable {K : Type} [Field K] [LinearOrder K]

theorem trimEnd_lvl (L : ℤ) (l : List ℕ) (x : ℕ) : Lvl (Quiet L) Eq (trimEnd L l x) (trimEnd 0 l x) := by
  unfold trimEnd
  exact Lvl.ite (fun _ => message_bind fun _ _ => Lvl.rfl' _) fun _ => .ok rfl

theorem trimStart_lvl (L : ℤ) (l : List ℕ) (x : ℕ) : Lvl (Quiet L) Eq (trimStart L l x) (trimStart 0 l x) := by
  unfold trimStart
  exact Lvl.ite (fun _ => message_bind fun _ _ => Lvl.rfl' _) fun _ => .ok rfl

theorem dropExtraAtEnds_lvl (L : ℤ) (p a : List ℕ) : Lvl (Quiet L) Eq (dropExtraAtEnds L p a) (dropExtraAtEnds 0 p a) := by
  unfold dropExtraAtEnds
  refine Lvl.bind (Lvl.rfl' _) ?_
  rintro aL _ rfl
  refine Lvl.bind (trimEnd_lvl L _ _) ?_
  rintro p1 _ rfl
  refine Lvl.bind (Lvl.rfl' _) ?_
  rintro pL _ rfl
  refine Lvl.bind (trimEnd_lvl L _ _) ?_
  rintro a1 _ rfl
  refine Lvl.bind (Lvl.rfl' _) ?_
  rintro aF _ rfl
  refine Lvl.bind (trimStart_lvl L _ _) ?_
  rintro p2 _ rfl
  refine Lvl.bind (Lvl.rfl' _) ?_
  rintro pF _ rfl
  refine Lvl.bind (trimStart_lvl L _ _) ?_
  rintro a2 _ rfl
  exact .ok rfl

theorem dropJumps_lvl (ph : ℕ → K) (maxR : K) (L : ℤ) (ext : List ℕ) :
    Lvl (Quiet L) Eq (dropJumps ph maxR L ext) (dropJumps ph maxR 0 ext) := by
  unfold dropJumps
  refine Lvl.bind (R := Eq) ?_ ?_
  · unfold dropJumpsEnd
    split
    · exact .ok rfl
    · refine Lvl.ite (fun _ => ?_) fun _ => .ok rfl
      refine Lvl.bind (Lvl.rfl' _) ?_
      rintro _ _ rfl
      refine Lvl.bind (Lvl.rfl' _) ?_
      rintro _ _ rfl
      exact message_bind fun _ _ => .ok rfl
  · rintro e1 _ rfl
    unfold dropJumpsStart
    split
    · exact .ok rfl
    · refine Lvl.ite (fun _ => ?_) fun _ => .ok rfl
      refine Lvl.bind (Lvl.rfl' _) ?_
      rintro _ _ rfl
      refine Lvl.bind (Lvl.rfl' _) ?_
      rintro _ _ rfl
      exact message_bind fun _ _ => Lvl.rfl' _

theorem dropTooClose_lvl (ph : ℕ → K) (minDiff : K) (L : ℤ) (ext : List ℕ) :
    Lvl (Quiet L) Eq (dropTooClose ph minDiff L ext) (dropTooClose ph minDiff 0 ext) := by
  unfold dropTooClose
  dsimp only
  split
  · exact .ok rfl
  · refine Lvl.bind (R := Eq) ?_ ?_
    · refine Lvl.ite (fun _ => ?_) fun _ => .ok rfl
      refine Lvl.bind (Lvl.rfl' _) ?_
      rintro _ _ rfl
      refine Lvl.bind (Lvl.rfl' _) ?_
      rintro _ _ rfl
      exact message_bind fun _ _ => .ok rfl
    · rintro e1 _ rfl
      refine Lvl.ite (fun _ => ?_) fun _ => .ok rfl
      refine Lvl.bind (Lvl.rfl' _) ?_
      rintro _ _ rfl
      exact message_bind fun _ _ => .ok rfl

theorem getGoodExtrema_lvl (ph : ℕ → K) (maxR minDiff : K) (L : ℤ) (p a : List ℕ) :
    Lvl (Quiet L) Eq (getGoodExtrema ph maxR minDiff L p a) (getGoodExtrema ph maxR minDiff 0 p a) := by
  unfold getGoodExtrema
  refine Lvl.bind (dropJumps_lvl _ _ _ _) ?_
  rintro _ _ rfl
  refine Lvl.bind (dropJumps_lvl _ _ _ _) ?_
  rintro _ _ rfl
  refine Lvl.bind (dropTooClose_lvl _ _ _ _) ?_
  rintro _ _ rfl
  refine Lvl.bind (dropTooClose_lvl _ _ _ _) ?_
  rintro _ _ rfl
  exact dropExtraAtEnds_lvl _ _ _

theorem checkDropped_lvl (L : ℤ) (l r : List ℕ) : Lvl (Quiet L) (fun _ (_ : Unit) => True) (checkDropped L l r) (.ok ()) := by
  unfold checkDropped
  split
  · exact .ok trivial
  · split
    · exact debugMessage_lvl _ _ _
    · exact .ok trivial

theorem checkSeparation_lvl (pi : K) (L : ℤ) (b : Bool) (ph ts : List K) :
    Lvl (Quiet L) (fun _ (_ : Unit) => True) (checkSeparation pi L b ph ts) (.ok ()) := by
  unfold checkSeparation
  split
  · exact .ok trivial
  · have step : ∀ {α : Type} (P : Prop) [Decidable P] (f : Outcome → α) (d : α),
        Lvl (Quiet L) (fun _ (_ : Unit) => True) (if P then (do let out ← debugMessage L false; pure (f out)) else pure d) (.ok ()) := by
      intro α P _ f d
      split
      · exact Lvl.skip (debugMessage_lvl _ _ _) fun a => .ok trivial
      · exact .ok trivial
    dsimp only
    refine Lvl.skip (step _ _ _) fun w1 => ?_
    refine Lvl.skip (step _ _ _) fun w2 => ?_
    refine Lvl.skip (step _ _ _) fun w3 => ?_
    exact .ok trivial

/-- The check for alternation: nothing, or a message; or `IndexError` if there are no extrema at all. -/
theorem checkAlternate_lvl (t : ℕ → K) (L : ℤ) (p a : List ℕ) :
    Lvl (Quiet L) (fun _ (_ : Unit) => True) (checkAlternate t L p a) (.ok ()) ∨
      (checkAlternate t L p a = .error .indexError ∧ p = [] ∧ a = []) := by
  unfold checkAlternate
  by_cases hL : L < 1
  · rw [if_pos hL]
    exact Or.inl (.ok trivial)
  · rw [if_neg hL]
    by_cases h2 : (p.length : ℤ) - a.length ≥ 2 ∨ (a.length : ℤ) - p.length ≥ 2
    · rw [if_pos h2]
      exact Or.inl (debugMessage_lvl _ _ _)
    · rw [if_neg h2]
      have fin : ∀ arr : List ℕ × List ℕ, Lvl (Quiet L) (fun _ (_ : Unit) => True)
          (if (diff ((interleave arr.1 arr.2).map t)).any (fun d => decide (d < 0)) then debugMessage L false else pure .silent)
          (.ok ()) := by
        intro arr
        split
        · exact debugMessage_lvl _ _ _
        · exact .ok trivial
      by_cases hl : p.length = a.length
      · rw [if_pos hl]
        cases p with
        | nil =>
          cases a with
          | nil => exact Or.inr ⟨rfl, rfl, rfl⟩
          | cons y a => simp at hl
        | cons x p =>
          cases a with
          | nil => simp at hl
          | cons y a =>
            left
            exact fin _
      · rw [if_neg hl]
        left
        exact fin _

end GwEcc
