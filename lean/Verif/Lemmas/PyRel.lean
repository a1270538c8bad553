import Verif.Lemmas.Extrema
import Verif.Lemmas.Measure

/-!
# Relating two runs

Two computations are related when both raise the same exception or both return related values.
-/

namespace GwEcc

inductive PyRel {α β : Type} (R : α → β → Prop) : Py α → Py β → Prop
  | ok {a : α} {b : β} (h : R a b) : PyRel R (.ok a) (.ok b)
  | error (e : Err) : PyRel R (.error e) (.error e)

namespace PyRel

variable {α β γ δ : Type}

theorem bind {R : α → β → Prop} {S : γ → δ → Prop} {x : Py α} {y : Py β} {f : α → Py γ} {g : β → Py δ}
    (h : PyRel R x y) (hf : ∀ a b, R a b → PyRel S (f a) (g b)) : PyRel S (x >>= f) (y >>= g) := by
  cases h with
  | ok h => exact hf _ _ h
  | error e => exact PyRel.error e

theorem refl {R : α → α → Prop} (hR : ∀ a, R a a) (x : Py α) : PyRel R x x := by
  cases x with
  | ok a => exact .ok (hR a)
  | error e => exact .error e

theorem of_eq {x y : Py α} (h : x = y) : PyRel Eq x y := by subst h; exact refl (fun _ => rfl) x

theorem of_map {x : Py α} {y : Py β} {f : α → β} (h : y = x.map f) : PyRel (fun a b => b = f a) x y := by
  subst h
  cases x with
  | ok a => exact .ok rfl
  | error e => exact .error e

theorem mono {R S : α → β → Prop} {x : Py α} {y : Py β} (h : PyRel R x y) (hs : ∀ a b, R a b → S a b) :
    PyRel S x y := by
  cases h with
  | ok h => exact .ok (hs _ _ h)
  | error e => exact .error e

theorem map_eq {x : Py α} {y : Py β} {f : α → γ} {g : β → γ} (h : PyRel (fun a b => g b = f a) x y) :
    y.map g = x.map f := by
  cases h with
  | ok h => exact congrArg Except.ok h
  | error e => rfl

theorem ite {R : α → β → Prop} {P Q : Prop} [Decidable P] [Decidable Q] {x x' : Py α} {y y' : Py β} (hpq : P ↔ Q)
    (h1 : P → Q → PyRel R x y) (h2 : ¬ P → ¬ Q → PyRel R x' y') :
    PyRel R (if P then x else x') (if Q then y else y') := by
  by_cases hp : P
  · rw [if_pos hp, if_pos (hpq.mp hp)]; exact h1 hp (hpq.mp hp)
  · rw [if_neg hp, if_neg (fun hq => hp (hpq.mpr hq))]; exact h2 hp (fun hq => hp (hpq.mpr hq))

theorem mapM {f : α → Py β} {f' : γ → Py δ} {s : α → γ} {g : β → δ}
    : ∀ l : List α, (∀ x ∈ l, PyRel (fun a b => b = g a) (f x) (f' (s x))) →
    PyRel (fun r r' => r' = r.map g) (l.mapM f) ((l.map s).mapM f')
  | [], _ => .ok rfl
  | a :: l, h => by
    rw [List.map_cons, List.mapM_cons, List.mapM_cons]
    refine bind (h a (by simp)) fun b b' hb => ?_
    refine bind (mapM l (fun x hx => h x (by simp [hx]))) fun r r' hr => ?_
    exact .ok (by simp [hb, hr])

/-- The relation of two results, case by case. -/
theorem pair {R : α → β → Prop} {x : Py α} {y : Py β} (h : PyRel R x y) :
    (∀ a, x = .ok a → ∃ b, y = .ok b ∧ R a b) ∧ ∀ e, x = .error e → y = .error e := by
  cases h with
  | ok h => exact ⟨fun a ha => ⟨_, rfl, by cases ha; exact h⟩, fun e he => nomatch he⟩
  | error e => exact ⟨fun a ha => (nomatch ha), fun e' he => by cases he; rfl⟩

theorem pyGet {s : α → β} (l : List α) (i : ℕ) : PyRel (fun a b => b = s a) (pyGet l i) (pyGet (l.map s) i) := by
  by_cases h : i < l.length
  · rw [pyGet_of_lt h, pyGet_of_lt (by simpa using h)]
    exact .ok (by simp)
  · unfold GwEcc.pyGet
    rw [List.getElem?_eq_none (by omega), List.getElem?_eq_none (by simp; omega)]
    exact .error _

theorem pyLast {s : α → β} (l : List α) : PyRel (fun a b => b = s a) (pyLast l) (pyLast (l.map s)) := by
  unfold GwEcc.pyLast
  rw [List.getLast?_map]
  cases l.getLast? with
  | none => exact .error _
  | some a => exact .ok rfl

end PyRel

end GwEcc
