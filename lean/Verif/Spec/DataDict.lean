import Verif.Model.DataDict

/-!
# Small specification for the preparation of the waveform data (C03, C19, C20, C48, C65)
-/

namespace GwEcc.Spec

/-- eccDefinition.py 597-611: the keys the documentation lists. -/
def recognised : List String :=
  ["t", "hlm", "amplm", "phaselm", "omegalm", "t_zeroecc", "hlm_zeroecc", "amplm_zeroecc", "phaselm_zeroecc",
    "omegalm_zeroecc"]

/-- The documented shape of a waveform dictionary, for a predicate telling which keys are given. -/
def GoodShape (has : String → Prop) : Prop :=
  has "t" ∧ (has "hlm" ∨ (has "amplm" ∧ has "phaselm")) ∧
  ¬ (has "hlm" ∧ (has "amplm" ∨ has "phaselm")) ∧
  ¬ (has "hlm_zeroecc" ∧ (has "amplm_zeroecc" ∨ has "phaselm_zeroecc"))

variable {K C : Type} [Field K] [LinearOrder K]

/-- Two dictionaries with the same data under the documented keys. -/
def SameData (v v' : DataV K C) : Prop := ∀ key ∈ recognised, v.get? key = v'.get? key

/-- `d` has mode `k` equal to `x`. -/
def HasMode {V : Type} (v : DataV K C) (key : String) (k : LM) (x : V) (get : Entry K C → Option (Dict LM V)) : Prop :=
  ∃ e d, v.get? key = some e ∧ get e = some d ∧ d.get? k = some x

/-- A dictionary of real modes. -/
def asReal : Entry K C → Option (Dict LM (List K))
  | .modesR d => some d
  | _ => none

/-- An array. -/
def asArray : Entry K C → Option (List K)
  | .arr l => some l
  | _ => none

/-- A dictionary of complex modes. -/
def asComplex : Entry K C → Option (Dict LM (List C))
  | .modesC d => some d
  | _ => none

/-- The real mode `k` stored under `key`, if there is one. -/
def realMode (v : DataV K C) (key : String) (k : LM) : Option (List K) := do
  let e ← v.get? key
  let d ← asReal e
  d.get? k

/-- The complex mode `k` stored under `key`, if there is one. -/
def complexMode (v : DataV K C) (key : String) (k : LM) : Option (List C) := do
  let e ← v.get? key
  let d ← asComplex e
  d.get? k

/-- The array stored under `key`, if there is one. -/
def array (v : DataV K C) (key : String) : Option (List K) := do
  let e ← v.get? key
  asArray e

/-- Each key of a Python dictionary occurs once. -/
def ProperDicts (v : DataV K C) : Prop :=
  ∀ key e, v.get? key = some e →
    (∀ d, e = .modesR d → d.keys.Nodup) ∧ (∀ d, e = .modesC d → d.keys.Nodup)

/-- The entries are of the documented types, times have at least two samples and modes at least five. -/
structure WellTyped (lib : WaveLib K C) (v : DataV K C) : Prop where
  t : ∀ key ∈ ["t", "t_zeroecc"], ∀ e, v.get? key = some e → ∃ l, e = .arr l ∧ 2 ≤ l.length
  real : ∀ key ∈ ["amplm", "amplm_zeroecc", "phaselm", "phaselm_zeroecc"], ∀ e, v.get? key = some e →
    ∃ d, e = .modesR d ∧ ∀ p ∈ d, 5 ≤ p.2.length
  complex : ∀ key ∈ ["hlm", "hlm_zeroecc"], ∀ e, v.get? key = some e →
    ∃ d, e = .modesC d ∧ ∀ p ∈ d, 5 ≤ (lib.phase p.2).length

/-- `R` holds the `ell = 2` modes the rotation library returns for the `ell = 2` modes of `H`, given at times `t`. -/
def Coprecessing (lib : WaveLib K C) (t : List K) (H R : Dict LM (List C)) : Prop :=
  ∃ a b c d f cols, H.get? (2, -2) = some a ∧ H.get? (2, -1) = some b ∧ H.get? (2, 0) = some c ∧ H.get? (2, 1) = some d ∧
    H.get? (2, 2) = some f ∧ lib.rotate t [a, b, c, d, f] = .ok cols ∧
    ∀ k : LM, R.get? k = if k.1 = 2 ∧ -2 ≤ k.2 ∧ k.2 ≤ 2 then cols[(k.2 + 2).toNat]? else none

/-- `H` are the complex modes with amplitudes `a` and phases `p`. -/
def Polar (lib : WaveLib K C) (a p : Dict LM (List K)) (H : Dict LM (List C)) : Prop :=
  ∀ k, (a.get? k = none ∧ H.get? k = none) ∨
    ∃ A φ h, a.get? k = some A ∧ p.get? k = some φ ∧ lib.polar A φ = .ok h ∧ H.get? k = some h

/-- `H` are the complex modes the caller gave, directly or as amplitudes and phases. -/
def Given (lib : WaveLib K C) (v : DataV K C) (tag : String) (H : LM → Option (List C)) : Prop :=
  (∃ c, v.get? ("hlm" ++ tag) = some (.modesC c) ∧ ∀ k, H k = c.get? k) ∨
  (v.get? ("hlm" ++ tag) = none ∧ ∃ a p c, v.get? ("amplm" ++ tag) = some (.modesR a) ∧
    v.get? ("phaselm" ++ tag) = some (.modesR p) ∧ Polar lib a p c ∧ ∀ k, H k = c.get? k)

/-- Amplitudes, phases and frequencies under `tag` are those of the complex modes `R` at times `t`. -/
def IsDataOf (lib : WaveLib K C) (nd : DataV K C) (tag : String) (t : List K) (R : Dict LM (List C)) : Prop :=
  ∀ k, realMode nd ("amplm" ++ tag) k = (R.get? k).map lib.abs ∧
    realMode nd ("phaselm" ++ tag) k = (R.get? k).map lib.phase ∧
    ∀ w, realMode nd ("omegalm" ++ tag) k = some w →
      ∃ h t0 t1, R.get? k = some h ∧ t[0]? = some t0 ∧ t[1]? = some t1 ∧ timeDeriv4 (lib.phase h) (t1 - t0) = .ok w

/-- The nearest sample of `phase` to `target`, the first one if there are several. -/
def NearestSample (phase : List K) (target : K) (i : ℕ) : Prop :=
  ∃ hi : i < phase.length, (∀ j (hj : j < phase.length), |phase[i] - target| ≤ |phase[j] - target|) ∧
    ∀ j (hj : j < phase.length), j < i → |phase[i] - target| < |phase[j] - target|

end GwEcc.Spec
