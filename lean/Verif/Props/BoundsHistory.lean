import Verif.Props.Repeat

/-!
# C30 Bounds in every history, with calls that fail in between

`C30_history` is about histories in which every call succeeds.  Here a call may raise and the caller goes on with the object.
-/

set_option linter.unusedSectionVars false

namespace GwEcc

open Spec

variable {K : Type} [Field K] [LinearOrder K] [IsStrictOrderedRing K]

/-- eccDefinition.py 3375-3387: what `get_fref_bounds` leaves stored, also when it raises: nothing new if the message raised,
if there was an average already or if computing one raised; otherwise the new average, which is stored before its minimum and
maximum are taken. -/
def storedAfter (e : Ext K) (m : Meas K) (c : AvgCache K) (method : Option String) : AvgCache K :=
  match (if m.o.useOnly then debugMessage m.o.level false else pure .silent) with
  | .error _ => c
  | .ok _ =>
    match c with
    | some avg => some avg
    | none =>
      match omegaAverage e m method with
      | .ok avg => some avg
      | .error _ => none

/-- What one call gives back to the caller: a value or an exception. -/
inductive Reply (K : Type)
  | measured (r : Py (Dict String (Val K)))
  | bounds (r : Py (K × K))

/-- The replies to a sequence of calls on one object, exceptions being caught by the caller.  `m` is what the first measurement
left on the object.  (After a failed measurement the stored average is taken to be what it was; `C30_any_history` shows that
this case does not occur.) -/
def replies [FloorRing K] (e : Ext K) (o : Obj K) (m : Meas K) : AvgCache K → List Request → List (Reply K)
  | _, [] => []
  | c, .measure :: l =>
    match measureEcc e o c with
    | .ok (r, _, c') => .measured (.ok r) :: replies e o m c' l
    | .error err => .measured (.error err) :: replies e o m c l
  | c, .bounds method :: l =>
    .bounds ((frefBounds e m c method).map Prod.fst) :: replies e o m (storedAfter e m c method) l

theorem frefBounds_some (e : Ext K) (m : Meas K) (avg : List K × List K) (method method' : Option String) :
    frefBounds e m (some avg) method = frefBounds e m (some avg) method' := rfl

theorem storedAfter_some (e : Ext K) (m : Meas K) (avg : List K × List K) (method : Option String) :
    storedAfter e m (some avg) method = some avg := by
  unfold storedAfter; split <;> rfl

/-- With nothing stored: either nothing is stored and the call raises, or the call is answered from what is now stored. -/
theorem storedAfter_none (e : Ext K) (m : Meas K) (method : Option String) :
    (storedAfter e m none method = none ∧ ∃ err, frefBounds e m none method = .error err) ∨
    ∃ avg, storedAfter e m none method = some avg ∧ frefBounds e m none method = frefBounds e m (some avg) none := by
  unfold storedAfter frefBounds
  split
  · rename_i err he
    left
    refine ⟨rfl, err, ?_⟩
    rw [he]; rfl
  · rename_i x hx
    rw [hx]
    simp only [ok_bind]
    cases hav : omegaAverage e m method with
    | error err => left; exact ⟨rfl, err, rfl⟩
    | ok avg => right; exact ⟨avg, rfl, rfl⟩

/-- With an average stored that a measurement does not change, all replies about bounds are the same. -/
theorem replies_stored [FloorRing K] {e : Ext K} {o : Obj K} {m : Meas K} {avg : List K × List K} {ret : Dict String (Val K)}
    (hm : measureEcc e o (some avg) = .ok (ret, some m, some avg)) (reqs : List Request) :
    ∀ r ∈ replies e o m (some avg) reqs,
      r = .measured (.ok ret) ∨ r = .bounds ((frefBounds e m (some avg) none).map Prod.fst) := by
  induction reqs with
  | nil => intro r hr; simp [replies] at hr
  | cons q l ih =>
    intro r hr
    cases q with
    | measure =>
      unfold replies at hr
      rw [hm] at hr
      rcases List.mem_cons.mp hr with rfl | hr
      · exact .inl rfl
      · exact ih r hr
    | bounds method =>
      unfold replies at hr
      rw [storedAfter_some] at hr
      rcases List.mem_cons.mp hr with rfl | hr
      · exact .inr rfl
      · exact ih r hr

theorem measureEcc_time [FloorRing K] {e : Ext K} {o : Obj K} {m : Meas K} {c : AvgCache K} {ret : Dict String (Val K)}
    (h : measureEcc e o none = .ok (ret, some m, c)) (hd : o.domain = .time) (c1 : AvgCache K) :
    measureEcc e o c1 = .ok (ret, some m, c1) := by
  obtain ⟨p, a, lacking, hf, ⟨hmo, _⟩ | ⟨m', p', a', hmo, hlack, hs, hm, hev⟩⟩ := measureEcc_ok h
  · cases hmo
  obtain rfl : m = m' := by simpa using hmo
  have ho : m.o = o := (prepare_ok hm).1
  have hd' : m.o.domain = .time := by rw [ho]; exact hd
  unfold measureEcc
  rw [hf, ok_bind]
  simp only
  rw [if_neg (by rw [hlack]; simp), hs, ok_bind]
  simp only
  rw [hm, ok_bind, evaluate_time hd' hev c1]
  rfl

/-- For frequency input the first measurement leaves an average stored from which bounds can be given. -/
theorem measureEcc_freq [FloorRing K] {e : Ext K} {o : Obj K} {m : Meas K} {c : AvgCache K} {ret : Dict String (Val K)}
    (h : measureEcc e o none = .ok (ret, some m, c)) (hd : o.domain = .frequency) :
    ∃ avg b, c = some avg ∧ measureEcc e o c = .ok (ret, some m, c) ∧ frefBounds e m c none = .ok (b, c) := by
  have hc := measureEcc_cache h
  rw [hd] at hc
  obtain ⟨avg, rfl, hav⟩ := hc
  obtain ⟨c2, h2⟩ := C68_repeat e o m _ _ ret h .first
  have hc2 := measureEcc_cache h2
  rw [hd] at hc2
  obtain ⟨avg', rfl, hav'⟩ := hc2
  rw [hav] at hav'
  obtain rfl := Except.ok.inj hav'
  obtain ⟨p, a, lacking, hf, ⟨hmo, _⟩ | ⟨m', p', a', hmo, hlack, hs, hm, hev⟩⟩ := measureEcc_ok h
  · cases hmo
  obtain rfl : m = m' := by simpa using hmo
  have ho : m.o = o := (prepare_ok hm).1
  have hd' : m.o.domain = .frequency := by rw [ho]; exact hd
  obtain ⟨_, _, _, _, _, hr, _⟩ := evaluate_ok hev
  obtain ⟨_, c1, ts, w, hfo, _, hst, _⟩ := trefFromFref_ok (referenceTimes_frequency hd' hr)
  obtain ⟨lo, hi, hb, _⟩ := frefOut_ok hfo
  obtain ⟨avg2, mn, mx, hc1, hcc, _⟩ := frefBounds_ok hb
  rcases hc1 with hc1 | ⟨_, hc1⟩
  · cases hc1
  rw [ho, hav] at hc1
  obtain rfl := Except.ok.inj hc1
  rw [hcc] at hb
  exact ⟨avg, (lo, hi), rfl, h2, frefBounds_stored hb none⟩

/-- After a first measurement that succeeded, in every sequence of further measurements and requests for the bounds, with any
methods, valid or not, and whichever of them raise: there is one pair of bounds such that every measurement succeeds with the
values of the first one and every request for the bounds returns that pair or raises.  It can raise only for time input, and
no longer once the bounds have been returned. -/
theorem C30_any_history [FloorRing K] (e : Ext K) (o : Obj K) (m : Meas K) (c : AvgCache K) (ret : Dict String (Val K))
    (h : measureEcc e o none = .ok (ret, some m, c)) (reqs : List Request) :
    ∃ b, (∀ r ∈ replies e o m c reqs,
        r = .measured (.ok ret) ∨ r = .bounds (.ok b) ∨ (o.domain = .time ∧ ∃ err, r = .bounds (.error err))) ∧
      (replies e o m c reqs).Pairwise (fun r r' => (∃ b', r = .bounds (.ok b')) → ∀ err, r' ≠ .bounds (.error err)) := by
  cases hd : o.domain with
  | frequency =>
    obtain ⟨avg, b, rfl, hm, hb⟩ := measureEcc_freq h hd
    have key := replies_stored hm reqs
    rw [hb] at key
    refine ⟨b, fun r hr => (key r hr).imp id .inl, ?_⟩
    refine List.pairwise_iff_forall_sublist.mpr ?_
    intro r r' hs _ err hr'
    have := key r' (hs.subset (by simp))
    rw [hr'] at this
    rcases this with h | h <;> cases h
  | time =>
    have hm := measureEcc_time h hd
    have hc : c = none := by
      have := measureEcc_cache h
      rw [hd] at this
      exact this
    subst hc
    -- once something is stored
    have stored : ∀ (avg : List K × List K) (l : List Request) (b : K × K),
        (∀ b', (frefBounds e m (some avg) none).map Prod.fst = .ok b' → b' = b) →
        (∀ r ∈ replies e o m (some avg) l,
          r = .measured (.ok ret) ∨ r = .bounds (.ok b) ∨ (Domain.time = Domain.time ∧ ∃ err, r = .bounds (.error err))) ∧
        (replies e o m (some avg) l).Pairwise
          (fun r r' => (∃ b', r = .bounds (.ok b')) → ∀ err, r' ≠ .bounds (.error err)) := by
      intro avg l b hb
      have key := replies_stored (hm (some avg)) l
      constructor
      · intro r hr
        rcases key r hr with h1 | h1
        · exact .inl h1
        · cases hx : (frefBounds e m (some avg) none).map Prod.fst with
          | error err => rw [hx] at h1; exact .inr (.inr ⟨rfl, err, h1⟩)
          | ok b' => rw [hx] at h1; rw [hb b' hx] at h1; exact .inr (.inl h1)
      · refine List.pairwise_iff_forall_sublist.mpr ?_
        rintro r r' hs ⟨b', rfl⟩ err rfl
        have h1 := key _ (hs.subset (List.mem_cons_self))
        have h2 := key _ (hs.subset (List.mem_cons_of_mem _ List.mem_cons_self))
        rcases h1 with h1 | h1
        · cases h1
        rcases h2 with h2 | h2
        · cases h2
        rw [← h1] at h2
        cases h2
    induction reqs with
    | nil => exact ⟨(0, 0), by simp [replies], by simp [replies]⟩
    | cons q l ih =>
      cases q with
      | measure =>
        obtain ⟨b, h1, h2⟩ := ih
        unfold replies
        rw [hm none]
        refine ⟨b, ?_, ?_⟩
        · intro r hr
          rcases List.mem_cons.mp hr with rfl | hr
          · exact .inl rfl
          · exact h1 r hr
        · refine List.pairwise_cons.mpr ⟨?_, h2⟩
          rintro _ _ ⟨b', hb'⟩
          cases hb'
      | bounds method =>
        unfold replies
        rcases storedAfter_none e m method with ⟨hs, err, herr⟩ | ⟨avg, hs, hsame⟩
        · obtain ⟨b, h1, h2⟩ := ih
          rw [hs, herr]
          refine ⟨b, ?_, ?_⟩
          · intro r hr
            rcases List.mem_cons.mp hr with rfl | hr
            · exact .inr (.inr ⟨rfl, err, rfl⟩)
            · exact h1 r hr
          · refine List.pairwise_cons.mpr ⟨?_, h2⟩
            rintro _ _ ⟨b', hb'⟩
            cases hb'
        · rw [hs, hsame]
          have key := replies_stored (hm (some avg)) l
          cases hx : (frefBounds e m (some avg) none).map Prod.fst with
          | error err =>
            obtain ⟨h1, h2⟩ := stored avg l (0, 0) (by rw [hx]; intro b' hb'; cases hb')
            refine ⟨(0, 0), ?_, ?_⟩
            · intro r hr
              rcases List.mem_cons.mp hr with rfl | hr
              · exact .inr (.inr ⟨rfl, err, rfl⟩)
              · exact h1 r hr
            · refine List.pairwise_cons.mpr ⟨?_, h2⟩
              rintro _ _ ⟨b', hb'⟩
              cases hb'
          | ok b =>
            obtain ⟨h1, h2⟩ := stored avg l b (by rw [hx]; intro b' hb'; exact (Except.ok.inj hb').symm)
            refine ⟨b, ?_, ?_⟩
            · intro r hr
              rcases List.mem_cons.mp hr with rfl | hr
              · exact .inr (.inl rfl)
              · exact h1 r hr
            · refine List.pairwise_cons.mpr ⟨?_, h2⟩
              rintro r' hr' _ err rfl
              have := key _ hr'
              rw [hx] at this
              rcases this with h | h <;> cases h

/-- Time input: a method that does not exist, then a measurement, then two methods. -/
example : (measureEcc Demo.ext Demo.obj none >>= fun r => match r.2.1 with
      | some m => .ok ((replies Demo.ext Demo.obj m r.2.2
          [.bounds (some "nonsense"), .measure, .bounds (some "mean_of_extrema_interpolants"), .bounds (some "nonsense")]).map
            fun | .measured (.ok _) => ((0, 0), true)
                | .measured (.error _) => ((0, 0), false)
                | .bounds (.ok b) => (b, true)
                | .bounds (.error _) => ((0, 0), false))
      | none => .ok [])
    = .ok [((0, 0), false), ((0, 0), true), ((1603 / 2200, 1673 / 2200), true), ((1603 / 2200, 1673 / 2200), true)] := by
  decide +kernel

end GwEcc
