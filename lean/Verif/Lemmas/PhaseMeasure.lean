import Verif.Lemmas.UnitsMeasure

/-!
# The measurement does not depend on the origin of the phase

Adding a constant to the phase changes no difference of phases, and nothing else of the phase is used.
-/

set_option linter.unusedSectionVars false

namespace GwEcc

namespace Turned

theorem eq_of_rel {α : Type} {x y : Py α} (h : PyRel (fun a b => b = a) x y) : y = x := by
  cases h with
  | ok h => rw [h]
  | error e => rfl

variable {K : Type} [Field K] [LinearOrder K] [IsStrictOrderedRing K]

/-- All values plus a constant. -/
def shift (c : K) (l : List K) : List K := l.map (· + c)

@[simp] theorem shift_length (c : K) (l : List K) : (shift c l).length = l.length := List.length_map _

@[simp] theorem shift_zero (l : List K) : shift 0 l = l := by
  unfold shift; simp

theorem shift_shift (c d : K) (l : List K) : shift c (shift d l) = shift (d + c) l := by
  unfold shift
  rw [List.map_map]
  exact List.map_congr_left fun x _ => add_assoc x d c

/-- The object with another origin of the phase. -/
def shiftObj (c : K) (o : Obj K) : Obj K := { o with phase := shift c o.phase }

theorem getD_shift {c : K} {l : List K} {i : ℕ} (hi : i < l.length) : (shift c l).getD i 0 = l.getD i 0 + c := by
  unfold shift
  rw [List.getD_eq_getElem _ _ (by simpa using hi), List.getD_eq_getElem _ _ hi, List.getElem_map]

theorem at_shift {c : K} {l : List K} {i : ℕ} (hi : i < l.length) : at' (shift c l) i = at' l i + c := getD_shift hi

theorem takeAt_shift {c : K} {l : List K} {idx : List ℕ} (h : ∀ i ∈ idx, i < l.length) :
    takeAt (shift c l) idx = shift c (takeAt l idx) := by
  unfold takeAt shift
  rw [List.map_map]
  exact List.map_congr_left fun i hi => at_shift (h i hi)

theorem diff_shift (c : K) (l : List K) : diff (shift c l) = diff l := by
  apply List.ext_getElem
  · rw [length_diff, length_diff, shift_length]
  intro i h1 h2
  rw [length_diff, shift_length] at h1
  rw [getElem_diff _ _ _ (by rw [shift_length]; omega), getElem_diff _ _ _ (by omega)]
  simp only [shift, List.getElem_map]
  ring

theorem diff_at {c : K} {l : List K} {idx : List ℕ} (h : ∀ i ∈ idx, i < l.length) :
    diff (idx.map (at' (shift c l))) = diff (idx.map (at' l)) := by
  have := takeAt_shift (c := c) h
  unfold takeAt at this
  rw [this, diff_shift]

theorem getGoodExtrema_shift {c : K} {ph : List K} {maxR minDiff : K} {level : ℤ} {p a : List ℕ}
    (hp : p.Pairwise (· < ·)) (ha : a.Pairwise (· < ·)) (vp : ∀ i ∈ p, i < ph.length) (va : ∀ i ∈ a, i < ph.length) :
    getGoodExtrema (at' (shift c ph)) maxR minDiff level p a = getGoodExtrema (at' ph) maxR minDiff level p a := by
  unfold getGoodExtrema
  have e1 : ∀ l : List ℕ, (∀ i ∈ l, i < ph.length) →
      dropJumps (at' (shift c ph)) maxR level l = dropJumps (at' ph) maxR level l := by
    intro l hl
    unfold dropJumps jumpRatios
    simp only [diff_at hl]
  have e2 : ∀ l : List ℕ, (∀ i ∈ l, i < ph.length) →
      dropTooClose (at' (shift c ph)) minDiff level l = dropTooClose (at' ph) minDiff level l := by
    intro l hl
    unfold dropTooClose
    simp only [diff_at hl]
  have e3 : ∀ {l out : List ℕ}, l.Pairwise (· < ·) → (∀ i ∈ l, i < ph.length) →
      dropJumps (at' ph) maxR level l = .ok out → ∀ i ∈ out, i < ph.length := by
    intro l out hs hl h i hi
    rw [dropJumps_ok hs h] at hi
    exact hl i (List.mem_of_mem_take (List.mem_of_mem_drop hi))
  rw [e1 p vp, e1 a va]
  cases h1 : dropJumps (at' ph) maxR level p with
  | error err => rfl
  | ok p1 =>
    cases h2 : dropJumps (at' ph) maxR level a with
    | error err => rfl
    | ok a1 =>
      simp only [ok_bind]
      rw [e2 p1 (e3 hp vp h1), e2 a1 (e3 ha va h2)]

theorem checkNumExtrema_shift (e : Ext K) (c : K) (o : Obj K) (l : List ℕ) :
    checkNumExtrema e (shiftObj c o) l = checkNumExtrema e o l := by
  unfold checkNumExtrema
  split
  · refine eq_of_rel ?_
    refine PyRel.bind (PyRel.pyLast (s := (· + c)) o.phase) fun x x' hx => ?_
    refine PyRel.bind (PyRel.pyGet (s := (· + c)) o.phase 0) fun y y' hy => ?_
    subst hx hy
    have : x + c - (y + c) = x - y := by ring
    simp only [this]
    exact PyRel.refl (R := fun a b => b = a) (fun _ => rfl) _
  · rfl

theorem findBoth_shift (e : Ext K) (c : K) (o : Obj K) : findBoth e (shiftObj c o) = findBoth e o := by
  unfold findBoth
  simp only [checkNumExtrema_shift]
  rfl

theorem checkSeparation_shift (pi : K) (level : ℤ) (b : Bool) (c : K) (ph ts : List K) :
    checkSeparation pi level b (shift c ph) ts = checkSeparation pi level b ph ts := by
  have : diff ((shift c ph).map (· / 2)) = diff (ph.map (· / 2)) := by
    have : (shift c ph).map (· / 2) = shift (c / 2) (ph.map (· / 2)) := by
      unfold shift
      rw [List.map_map, List.map_map]
      exact List.map_congr_left fun x _ => add_div x c 2
    rw [this, diff_shift]
  unfold checkSeparation
  simp only [this]

/-- The phase is known at the given samples. -/
def Known (o : Obj K) (l : List ℕ) : Prop := ∀ i ∈ l, i < o.phase.length

theorem settleExtrema_shift (e : Ext K) (c : K) (o : Obj K) {p a : List ℕ} (hp : p.Pairwise (· < ·))
    (ha : a.Pairwise (· < ·)) (vp : Known o p) (va : Known o a) :
    PyRel (fun r r' => r' = r ∧ Known o r.1 ∧ Known o r.2) (settleExtrema e o p a)
      (settleExtrema e (shiftObj c o) p a) := by
  unfold settleExtrema
  have hg' : getGoodExtrema (at' (shiftObj c o).phase) (3 / 2) (4 * e.pi) (shiftObj c o).level p a
      = getGoodExtrema (at' o.phase) (3 / 2) (4 * e.pi) o.level p a := getGoodExtrema_shift hp ha vp va
  rw [hg']
  cases hg : getGoodExtrema (at' o.phase) (3 / 2) (4 * e.pi) o.level p a with
  | error err => exact .error _
  | ok r =>
    obtain ⟨p1, a1⟩ := r
    have hsub := C23_contiguous _ _ _ _ _ _ _ _ hp ha hg
    have vp1 : Known o p1 := fun i hi => vp i (hsub.1.subset hi)
    have va1 : Known o a1 := fun i hi => va i (hsub.2.1.subset hi)
    simp only [ok_bind]
    refine PyRel.bind (PyRel.refl (R := Eq) (fun _ => rfl) _) fun _ _ _ => ?_
    refine PyRel.bind (PyRel.refl (R := Eq) (fun _ => rfl) _) fun _ _ _ => ?_
    set q := (if (o.precessing && o.filtered) = true then (p1.drop 1, a1.drop 1) else (p1, a1)) with hq
    have hq' : (if ((shiftObj c o).precessing && (shiftObj c o).filtered) = true then (p1.drop 1, a1.drop 1)
        else (p1, a1)) = q := rfl
    rw [hq']
    have vq : Known o q.1 ∧ Known o q.2 := by
      rw [hq]
      split
      · exact ⟨fun i hi => vp1 i (List.mem_of_mem_drop hi), fun i hi => va1 i (List.mem_of_mem_drop hi)⟩
      · exact ⟨vp1, va1⟩
    obtain ⟨q1, q2⟩ := q
    simp only at vq ⊢
    refine PyRel.bind (PyRel.refl (R := Eq) (fun _ => rfl) _) fun _ _ _ => ?_
    have e1 : takeAt (shiftObj c o).phase q1 = shift c (takeAt o.phase q1) := takeAt_shift vq.1
    have e2 : takeAt (shiftObj c o).phase q2 = shift c (takeAt o.phase q2) := takeAt_shift vq.2
    rw [e1, e2, checkSeparation_shift, checkSeparation_shift]
    refine PyRel.bind (PyRel.refl (R := Eq) (fun _ => rfl) _) fun _ _ _ => ?_
    refine PyRel.bind (PyRel.refl (R := Eq) (fun _ => rfl) _) fun _ _ _ => ?_
    exact .ok ⟨rfl, vq.1, vq.2⟩

/-- What is stored, with another origin of the phase. -/
def shiftMeas (c : K) (m : Meas K) : Meas K := { m with o := shiftObj c m.o }

theorem prepare_shift (e : Ext K) (c : K) (o : Obj K) (p a : List ℕ) :
    PyRel (fun m m' => m' = shiftMeas c m ∧ m.o = o ∧ m.pericenters = p ∧ m.apocenters = a) (prepare e o p a)
      (prepare e (shiftObj c o) p a) := by
  unfold prepare
  refine PyRel.bind (R := Eq) (PyRel.refl (fun _ => rfl) _) fun x1 _ h => ?_
  subst h
  refine PyRel.bind (R := Eq) (PyRel.refl (fun _ => rfl) _) fun x2 _ h => ?_
  subst h
  refine PyRel.bind (R := Eq) (PyRel.refl (fun _ => rfl) _) fun x3 _ h => ?_
  subst h
  refine PyRel.bind (R := Eq) (PyRel.refl (fun _ => rfl) _) fun x4 _ h => ?_
  subst h
  refine PyRel.bind (R := Eq) (PyRel.refl (fun _ => rfl) _) fun f _ h => ?_
  subst h
  refine PyRel.bind (R := Eq) (PyRel.refl (fun _ => rfl) _) fun g _ h => ?_
  subst h
  exact .ok ⟨rfl, rfl, rfl, rfl⟩

theorem orbitAveraged_shift (c : K) (o : Obj K) {l : List ℕ} (h : Known o l) :
    orbitAveraged (shiftObj c o) l = orbitAveraged o l := by
  unfold orbitAveraged
  have e1 : takeAt (shiftObj c o).phase l = shift c (takeAt o.phase l) := takeAt_shift h
  rw [e1, diff_shift]
  rfl

theorem computeOrbitAveraged_shift (e : Ext K) (c : K) (m : Meas K) (hp : Known m.o m.pericenters)
    (ha : Known m.o m.apocenters) (ts : List K) :
    computeOrbitAveraged e (shiftMeas c m) ts = computeOrbitAveraged e m ts := by
  have e1 : orbitAveraged (shiftMeas c m).o (shiftMeas c m).pericenters = orbitAveraged m.o m.pericenters :=
    orbitAveraged_shift c m.o hp
  have e2 : orbitAveraged (shiftMeas c m).o (shiftMeas c m).apocenters = orbitAveraged m.o m.apocenters :=
    orbitAveraged_shift c m.o ha
  unfold computeOrbitAveraged
  rw [e1, e2]
  rfl

theorem omegaAverage_shift (e : Ext K) (c : K) (m : Meas K) (hp : Known m.o m.pericenters)
    (ha : Known m.o m.apocenters) (method : Option String) :
    omegaAverage e (shiftMeas c m) method = omegaAverage e m method := by
  have h : ∀ s ts, evalAverage e (shiftMeas c m) s ts = evalAverage e m s ts := by
    intro s ts
    unfold evalAverage
    rw [computeOrbitAveraged_shift e c m hp ha]
    rfl
  unfold omegaAverage
  simp only [h]
  rfl

theorem evaluate_shift [FloorRing K] (e : Ext K) (c : K) (m : Meas K) (hp : Known m.o m.pericenters)
    (ha : Known m.o m.apocenters) (cache : AvgCache K) :
    evaluate e (shiftMeas c m) cache = evaluate e m cache := by
  have h1 : ∀ cc l s, frefOut e (shiftMeas c m) cc l s = frefOut e m cc l s := by
    intro cc l s
    unfold frefOut frefBounds
    simp only [omegaAverage_shift e c m hp ha]
    rfl
  have h2 : ∀ cc l, trefFromFref e (shiftMeas c m) cc l = trefFromFref e m cc l := by
    intro cc l
    unfold trefFromFref
    simp only [omegaAverage_shift e c m hp ha, h1]
    rfl
  have h3 : referenceTimes e (shiftMeas c m) cache = referenceTimes e m cache := by
    unfold referenceTimes
    simp only [h2]
    rfl
  unfold evaluate
  rw [h3]
  rfl

/-- The extrema are increasing numbers of samples whose phase is known. -/
def FindsKnown (e : Ext K) (o : Obj K) : Prop :=
  ∀ ty l, e.find ty = .ok l → l.Pairwise (· < ·) ∧ Known o l

theorem findBoth_known {e : Ext K} {o : Obj K} (hf : FindsKnown e o) {r : List ℕ × List ℕ × Bool}
    (h : findBoth e o = .ok r) :
    (r.1.Pairwise (· < ·) ∧ Known o r.1) ∧ (r.2.1.Pairwise (· < ·) ∧ Known o r.2.1) := by
  unfold findBoth at h
  obtain ⟨p, hp, h⟩ := bind_ok h
  obtain ⟨ip, _, h⟩ := bind_ok h
  obtain ⟨a, ha, h⟩ := bind_ok h
  obtain ⟨ia, _, h⟩ := bind_ok h
  injection h with h
  subst h
  have hp' := hf _ _ hp
  refine ⟨hp', ?_⟩
  split at ha
  · injection ha with ha
    subst ha
    exact ⟨midpoints_sorted _ hp'.1, midpoints_bound _ _ hp'.2⟩
  · exact hf _ _ ha

/-- The whole measurement. -/
theorem measureEcc_shift [FloorRing K] (e : Ext K) (c : K) (o : Obj K) (hf : FindsKnown e o) (cache : AvgCache K) :
    PyRel (fun r r' => r'.1 = r.1 ∧ r'.2.1 = r.2.1.map (shiftMeas c) ∧ r'.2.2 = r.2.2) (measureEcc e o cache)
      (measureEcc e (shiftObj c o) cache) := by
  unfold measureEcc
  rw [findBoth_shift]
  cases hb : findBoth e o with
  | error err => exact .error _
  | ok r =>
    obtain ⟨p, a, lacking⟩ := r
    obtain ⟨⟨hp, vp⟩, ⟨ha, va⟩⟩ := findBoth_known hf hb
    simp only [ok_bind]
    refine PyRel.ite Iff.rfl (fun _ _ => ?_) fun _ _ => ?_
    · have : setToZero (shiftObj c o) = setToZero o := rfl
      rw [this]
      exact PyRel.bind (PyRel.refl (R := Eq) (fun _ => rfl) _) fun r r' hr => .ok (by subst hr; exact ⟨rfl, rfl, rfl⟩)
    · refine PyRel.bind (settleExtrema_shift e c o hp ha vp va) fun r r' hr => ?_
      obtain ⟨p', a'⟩ := r
      obtain ⟨rfl, vp', va'⟩ := hr
      refine PyRel.bind (prepare_shift e c o p' a') fun m m' hm => ?_
      obtain ⟨rfl, ho, rfl, rfl⟩ := hm
      subst ho
      rw [evaluate_shift e c m vp' va']
      exact PyRel.bind (PyRel.refl (R := Eq) (fun _ => rfl) _) fun r r' hr => .ok (by subst hr; exact ⟨rfl, rfl, rfl⟩)

end Turned

end GwEcc
