import Verif.Model.Heap

/-!
# What a measurement should do to the caller's objects

The measurement as a function of the *contents* of the caller's `dataDict`.  A measurement that leaves the caller's objects
alone and does not depend on what was measured before returns exactly this.
-/

namespace GwEcc

section

variable {K C : Type}

/-! ### Memory -/

/-- The object is an array of floats. -/
def IsArr (h : Heap K C) (r : Ref) : Prop :=
  (∃ l, h[r]? = some (.nums l)) ∨ ∃ b s n, h[r]? = some (.view b s n)

/-- References lead to objects of the right kind. -/
def Cell.Ok (h : Heap K C) : Cell K C → Prop
  | .view b _ _ => ∃ l, h[b]? = some (.nums l)
  | .modesR d => ∀ p ∈ d, IsArr h p.2
  | .modesC d => ∀ p ∈ d, ∃ l, h[p.2]? = some (.cnums l)
  | .top d => ∀ p ∈ d, p.2 < h.length
  | _ => True

/-- Memory in which every reference leads to an object of the right kind. -/
def WF (h : Heap K C) : Prop := ∀ (i : ℕ) (c : Cell K C), h[i]? = some c → c.Ok h

/-- Nothing that existed before has changed: `h'` is `h` with new objects added. -/
def Unchanged (h h' : Heap K C) : Prop := ∃ new, h' = h ++ new

/-- The objects that `process_data_dict` may write to, of those the caller has. -/
def Written (precessing : Flag) (frame : String) (numOrbits : Option K) (root : ℕ) (h : Heap K C) : Set ℕ :=
  {i | (mustTransform precessing frame = true ∧ (topDict h root).has "hlm" = false ∧ i = root) ∨
    (mustTransform precessing frame = false ∧ numOrbits ≠ none ∧ (topDict h root).get? "omegalm" = some i)}

/-- The caller's frequencies are not held under another key of the same dictionary. -/
def OwnOmega (h : Heap K C) (root : ℕ) : Prop :=
  ∀ r, (topDict h root).get? "omegalm" = some r → ∀ k, (topDict h root).get? k = some r → k = "omegalm"

end

namespace Spec

variable {K C : Type} [Field K] [LinearOrder K] [FloorRing K]

/-- Construction of the measuring object: the prepared data, and the segment of the samples that is used. -/
def constructV {α β : Type} (lib : WaveLib K C) (precessing : Flag) (frame : String) (numOrbits : Option K)
    (rest : Rest K C α β) (v : DataV K C) : Py (DataV K C × Analysis K × Option (ℕ × ℕ)) := do
  let x ← processData lib precessing frame v numOrbits
  let seg ← rest.init x.1 x.2
  pure (x.1, x.2, seg)

/-- The times of the samples used. -/
def segTimes (seg : Option (ℕ × ℕ)) (t : List K) : List K :=
  match seg with
  | none => t
  | some (s, n) => (t.drop s).take n

/-- The times the search for extrema works with: for the methods based on fits they are counted from the merger. -/
def searchTimes (fits : Bool) (tMerger : K) (t : List K) : List K :=
  if fits then t.map (· + -tMerger) else t

/-- Both searches for extrema. -/
def searchV {α β : Type} (fits : Bool) (rest : Rest K C α β) (x : DataV K C × Analysis K × Option (ℕ × ℕ)) : Py (α × α) := do
  let t ← getArr x.1 "t"
  let t := searchTimes fits x.2.1.tMerger (segTimes x.2.2 t)
  let p ← rest.search x.1 x.2.1 .pericenters t
  let a ← (match rest.midpoints with
    | some f => pure (f p)
    | none => rest.search x.1 x.2.1 .apocenters t)
  pure (p, a)

/-- The measurement as a function of the contents of the caller's data. -/
def measureV {α β : Type} (lib : WaveLib K C) (fits : Bool) (precessing : Flag) (frame : String)
    (numOrbits : Option K) (rest : Rest K C α β) (v : DataV K C) : Py β := do
  let x ← constructV lib precessing frame numOrbits rest v
  let pa ← searchV fits rest x
  rest.final x.1 x.2.1 pa.1 pa.2

/-- A call of `measure_eccentricity`: all arguments but the data. -/
structure Call (K C β : Type) where
  α : Type
  lib : WaveLib K C
  fits : Bool
  precessing : Flag
  frame : String
  numOrbits : Option K
  rest : Rest K C α β

/-- The call on the caller's object `root`. -/
def Call.run {β : Type} (c : Call K C β) (root : Ref) : HM K C β :=
  measureH c.lib c.fits c.precessing c.frame c.numOrbits c.rest root

/-- The call as a function of the contents of the data. -/
def Call.value {β : Type} (c : Call K C β) (v : DataV K C) : Py β :=
  measureV c.lib c.fits c.precessing c.frame c.numOrbits c.rest v

/-- A program of calls, one after the other, each on one of the caller's `dataDict` objects; an exception of one call does
not prevent the next.  Outcomes in order, and the memory left. -/
def runAll {β : Type} : List (Call K C β × Ref) → Heap K C → List (Py β) × Heap K C
  | [], h => ([], h)
  | (c, root) :: cs, h =>
    let (x, h') := c.run root h
    let (xs, h'') := runAll cs h'
    (x :: xs, h'')

/-- The two situations in which the preparation writes to the caller's dictionaries do not occur: no modes have to be built
for the rotation, and given frequencies are not cut. -/
def Call.NoWrite {β : Type} (c : Call K C β) (has : String → Bool) : Prop :=
  (mustTransform c.precessing c.frame = true → has "hlm" = true) ∧
  (mustTransform c.precessing c.frame = false → c.numOrbits ≠ none → has "omegalm" = false)

/-- With the methods based on fits, the search for extrema is not reached or does not raise. -/
def Call.SearchEnds {β : Type} (c : Call K C β) (v : DataV K C) : Prop :=
  c.fits = true → ∀ x, constructV c.lib c.precessing c.frame c.numOrbits c.rest v = .ok x → ∃ pa, searchV c.fits c.rest x = .ok pa

end Spec

end GwEcc
