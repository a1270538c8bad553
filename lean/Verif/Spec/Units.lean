import Verif.Model.Measure

/-!
# Small specification for C14: change of the unit and the origin of time
-/

namespace GwEcc

variable {K : Type} [Field K] [LinearOrder K]

/-- Apply a function to a scalar or to every entry of an array. -/
def Val.map (f : K → K) : Val K → Val K
  | .scalar x => .scalar (f x)
  | .array l => .array (l.map f)

namespace Spec

/-- A time in the new units. -/
def newTime (k c x : K) : K := k * x + c

/-- A frequency in the new units. -/
def newFreq (k w : K) : K := w / k

/-- A reference point (time or frequency) in the new units. -/
def newRef (k c : K) : Domain → K → K
  | .time => newTime k c
  | .frequency => newFreq k

/-- The same waveform and request in the new units; phases do not change. -/
def newObj (k c : K) (o : Obj K) : Obj K :=
  { o with
    t := o.t.map (newTime k c)
    omega := o.omega.map (newFreq k)
    dataT := o.dataT.map (newTime k c)
    refIn := o.refIn.map (newRef k c o.domain)
    zeroecc := o.zeroecc.map (fun z => (z.1.map (newTime k c), z.2.map (newFreq k))) }

/-- The same answer in the new units: only the reference points change. -/
def newResult (k c : K) (d : Domain) (ret : Dict String (Val K)) : Dict String (Val K) :=
  ret.map (fun kv => if kv.1 = d.key then (kv.1, kv.2.map (newRef k c d)) else kv)

/-- What is assumed of the external routines: interpolation commutes with a change of units of either axis
(between the nodes if the values are times), the derivative and the rational fit transform accordingly, sorting depends on the order only, and the eccentricity depends on
the ratio of the two frequencies only.  (The finder of extrema returns indices, the same in all units.) -/
structure UnitFree (e : Ext K) (k c : K) : Prop where
  pi : 0 < e.pi
  tol : 0 ≤ e.tol
  eccOf : ∀ wp wa, e.eccOf (newFreq k wp) (newFreq k wa) = e.eccOf wp wa
  evalFreq : ∀ call x y u, e.eval call (x.map (newTime k c)) (y.map (newFreq k)) (newTime k c u)
    = (e.eval call x y u).map (newFreq k)
  evalTime : ∀ call x y u, (∃ a ∈ x, a ≤ u) → (∃ b ∈ x, u ≤ b) → e.eval call (x.map (newFreq k)) (y.map (newTime k c)) (newFreq k u)
    = (e.eval call x y u).map (newTime k c)
  deriv : ∀ call x y u, e.deriv call (x.map (newTime k c)) y (newTime k c u) = (e.deriv call x y u).map (newFreq k)
  ratFit : ∀ ty x y x' y', (∀ f, e.ratFit ty x y x' y' = .ok f → ∃ f', e.ratFit ty (x.map (newTime k c)) (y.map (newFreq k))
      (x'.map (newTime k c)) (y'.map (newFreq k)) = .ok f' ∧ ∀ u, f' (newTime k c u) = (f u).map (newFreq k)) ∧
    (∀ err, e.ratFit ty x y x' y' = .error err → e.ratFit ty (x.map (newTime k c)) (y.map (newFreq k))
      (x'.map (newTime k c)) (y'.map (newFreq k)) = .error err)
  argsort : ∀ l, e.argsort (l.map (newTime k c)) = e.argsort l
  argsortRange : ∀ l, ∀ i ∈ e.argsort l, i < l.length

/-- Extrema are given as increasing sample numbers of the waveform. -/
def FindsSamples (e : Ext K) (o : Obj K) : Prop :=
  ∀ ty l, e.find ty = .ok l → l.Pairwise (· < ·) ∧ ∀ i ∈ l, i < o.t.length

end Spec

end GwEcc
