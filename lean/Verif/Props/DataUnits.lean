import Verif.Props.DataDict

/-!
# C65 (continued): the peak-finder width does not depend on the unit and origin of time

Cases that meet the premises of the theorems are in `Props/DataDemo`.
-/

set_option linter.unusedSectionVars false

namespace GwEcc

open Spec

section
variable {K C : Type} [Field K] [LinearOrder K] [IsStrictOrderedRing K] [FloorRing K]

/-- The same waveform with times `k * t + c`: only the times and, if given, the frequencies differ. -/
structure Spec.NewUnits (k c : K) (v v' : DataV K C) : Prop where
  t : ∀ t, v.get? "t" = some (.arr t) → v'.get? "t" = some (.arr (t.map (fun x => k * x + c)))
  omega : (v.get? "omegalm" = none ∧ v'.get? "omegalm" = none) ∨ ∃ w w', v.get? "omegalm" = some (.modesR w) ∧
    v'.get? "omegalm" = some (.modesR w') ∧ ∀ m, w'.get? m = (w.get? m).map (List.map (· / k))
  rest : ∀ key, key ≠ "t" → key ≠ "omegalm" → v'.get? key = v.get? key

theorem timeDeriv4_units (y : List K) (dt k : K) (hk : 0 < k) :
    timeDeriv4 y (k * dt) = (timeDeriv4 y dt).map (List.map (· / k)) := by
  unfold timeDeriv4
  split
  · rfl
  · simp only [Except.map, List.map_map]
    congr 1
    apply List.map_congr_left
    intro i _
    simp only [Function.comp]
    rw [div_div, mul_comm k dt]

theorem omegaModes_units (t : List K) (k c : K) (hk : 0 < k) : ∀ (e acc acc' w : Dict LM (List K)), e.keys.Nodup →
    (∀ m, m ∉ e.keys → acc'.get? m = (acc.get? m).map (List.map (· / k))) →
    e.foldlM (fun acc p => do
      let t1 ← pyGet t 1
      let t0 ← pyGet t 0
      let w ← timeDeriv4 p.2 (t1 - t0)
      pure (acc.set p.1 w)) acc = .ok w →
    ∃ w', e.foldlM (fun acc p => do
      let t1 ← pyGet (t.map (fun x => k * x + c)) 1
      let t0 ← pyGet (t.map (fun x => k * x + c)) 0
      let w ← timeDeriv4 p.2 (t1 - t0)
      pure (acc.set p.1 w)) acc' = .ok w' ∧ ∀ m, w'.get? m = (w.get? m).map (List.map (· / k))
  | [], acc, acc', w, _, ha, h => by
    cases h
    exact ⟨acc', rfl, fun m => ha m (by simp [Dict.keys])⟩
  | p :: e, acc, acc', w, hn, ha, h => by
    rw [List.foldlM_cons] at h
    obtain ⟨acc1, h1, h⟩ := bind_ok h
    obtain ⟨t1, ht1, h1⟩ := bind_ok h1
    obtain ⟨t0, ht0, h1⟩ := bind_ok h1
    obtain ⟨r, hr, h1⟩ := bind_ok h1
    cases h1
    simp only [Dict.keys, List.map_cons, List.nodup_cons] at hn
    obtain ⟨w', hw', hm⟩ := omegaModes_units t k c hk e (acc.set p.1 r) (acc'.set p.1 (r.map (· / k))) w hn.2 (by
      intro m hme
      rw [Dict.get?_set, Dict.get?_set]
      by_cases hmp : m = p.1
      · simp [hmp]
      · rw [if_neg hmp, if_neg hmp]
        exact ha m (by simp only [Dict.keys, List.map_cons, List.mem_cons, not_or]; exact ⟨hmp, hme⟩)) h
    refine ⟨w', ?_, hm⟩
    have g : ∀ i x, pyGet t i = .ok x → pyGet (t.map (fun x => k * x + c)) i = .ok (k * x + c) := by
      intro i x hx
      apply pyGet_of_getElem?
      rw [List.getElem?_map, pyGet_getElem? hx]; rfl
    rw [List.foldlM_cons]
    rw [g 1 t1 ht1, g 0 t0 ht0] at hw' ⊢
    simp only [ok_bind] at hw' ⊢
    have e1 : k * t1 + c - (k * t0 + c) = k * (t1 - t0) := by ring
    simp only [e1] at hw' ⊢
    rw [timeDeriv4_units _ _ _ hk, hr]
    exact hw'

theorem newData_units {lib : WaveLib K C} {k c : K} (hk : 0 < k) {v v' nd : DataV K C} (hp : ProperDicts v)
    (hu : NewUnits k c v v') (ht : ∃ t, v.get? "t" = some (.arr t)) (h : newData lib v = .ok nd) :
    ∃ nd', newData lib v' = .ok nd' ∧
      (∀ t, nd.get? "t" = some (.arr t) → nd'.get? "t" = some (.arr (t.map (fun x => k * x + c)))) ∧
      nd'.get? "amplm" = nd.get? "amplm" ∧ nd'.get? "phaselm" = nd.get? "phaselm" ∧
      ∃ w w', nd.get? "omegalm" = some (.modesR w) ∧ nd'.get? "omegalm" = some (.modesR w') ∧
        ∀ m, w'.get? m = (w.get? m).map (List.map (· / k)) := by
  obtain ⟨t, ht⟩ := ht
  have ht' := hu.t t ht
  have S := newData_spec h
  have R : ∀ (conv : List C → List K) name suffix, (name = "amplm" ∨ name = "phaselm") → (suffix = "" ∨ suffix = "_zeroecc") →
      realModes conv name suffix v' = realModes conv name suffix v := by
    intro conv name suffix hn hs
    apply realModes_congr
    · rcases hn with rfl | rfl <;> rcases hs with rfl | rfl <;> exact hu.rest _ (by decide) (by decide)
    · rcases hs with rfl | rfl <;> exact hu.rest _ (by decide) (by decide)
  have h0 := h
  unfold newData at h0
  rw [if_pos S.t.1] at h0
  obtain ⟨te, hte, h0⟩ := bind_ok h0
  obtain ⟨n0, hn0, h0⟩ := bind_ok h0
  obtain ⟨d, hd, h0⟩ := bind_ok h0
  obtain ⟨a, z, p, q, w, ha, hz, hph, hq, hw, hcase⟩ := ampPhaseOmega_ok hd
  have nodup : p.keys.Nodup := by
    rcases realModes_spec lib.phase hp hph with ⟨_, _, hn⟩ | ⟨_, c, _, hn, rfl⟩ | ⟨_, _, _, rfl⟩
    · exact hn
    · rw [keys_map]; exact hn
    · simp [Dict.keys]
  -- the frequencies of the new run
  have hom : ∃ w1 w1', w = .modesR w1 ∧ (∀ m, w1'.get? m = (w1.get? m).map (List.map (· / k))) ∧
      ((v'.has "omegalm" = true ∧ v'.get? "omegalm" = some (.modesR w1')) ∨
        (v'.has "omegalm" = false ∧ omegaModes (t.map (fun x => k * x + c)) p = .ok w1')) := by
    rcases hu.omega with ⟨u1, u2⟩ | ⟨w0, w0', u1, u2, u3⟩
    · rcases hw with hw | ⟨_, t2, w2, ht2, hw2, rfl⟩
      · rw [u1] at hw; cases hw
      · have := getArr_ok ht2
        rw [ht] at this
        cases this
        -- the accumulator does not matter, every mode is overwritten
        obtain ⟨w'', hw'', hm''⟩ : ∃ w'', omegaModes (t.map (fun x => k * x + c)) p = .ok w'' ∧
            ∀ m, w''.get? m = (w2.get? m).map (List.map (· / k)) := by
          have := omegaModes_units t k c hk p p p w2 nodup (by
            intro m hm
            have : p.get? m = none := (Dict.get?_none_iff _ _).mpr hm
            rw [this]; rfl) hw2
          exact this
        exact ⟨w2, w'', rfl, hm'', Or.inr ⟨(has_false_iff _ _).mpr u2, hw''⟩⟩
    · rcases hw with hw | ⟨hw, _⟩
      · rw [u1] at hw
        cases hw
        exact ⟨w0, w0', rfl, u3, Or.inl ⟨(Dict.has_iff_get? _ _).mpr ⟨_, u2⟩, u2⟩⟩
      · rw [u1] at hw; cases hw
  obtain ⟨w1, w1', rfl, hw1, hcase1⟩ := hom
  have hap : ∃ d', ampPhaseOmega lib v' = .ok d' := by
    unfold ampPhaseOmega realModesDict
    rw [R _ _ _ (Or.inl rfl) (Or.inl rfl), R _ _ _ (Or.inl rfl) (Or.inr rfl), R _ _ _ (Or.inr rfl) (Or.inl rfl),
      R _ _ _ (Or.inr rfl) (Or.inr rfl), ha, hz, hph, hq]
    simp only [ok_bind, pure_eq_ok]
    have hd : Dict.update (Dict.update [] (withZeroecc "amplm" a z)) (withZeroecc "phaselm" p q)
        = (apDict a z p q : DataV K C) := rfl
    simp only [hd]
    have hpg : getR (apDict a z p q : DataV K C) "phaselm" = .ok p := by
      apply getR_of; rw [apDict_get]; simp
    have hx : (if v'.has "omegalm" then v'.getItem "omegalm" else do
        let t ← getArr v' "t"
        let p ← getR (apDict a z p q : DataV K C) "phaselm"
        let w ← omegaModes t p
        Except.ok (.modesR w) : Py (Entry K C)) = .ok (.modesR w1') := by
      rcases hcase1 with ⟨c1, c2⟩ | ⟨c1, c2⟩
      · rw [if_pos c1]; exact getItem_of c2
      · rw [if_neg (by simp [c1]), getArr_of ht', hpg]
        simp only [ok_bind]
        rw [c2]; rfl
    rw [hx]
    simp only [ok_bind]
    have e1 : v'.has "omegalm_zeroecc" = v.has "omegalm_zeroecc" := Dict.has_congr (hu.rest _ (by decide) (by decide))
    have e2 : v'.has "t_zeroecc" = v.has "t_zeroecc" := Dict.has_congr (hu.rest _ (by decide) (by decide))
    have e3 : v'.getItem "omegalm_zeroecc" = v.getItem "omegalm_zeroecc" :=
      Dict.getItem_congr (hu.rest _ (by decide) (by decide))
    have e4 : getArr v' "t_zeroecc" = getArr v "t_zeroecc" := getArr_congr (hu.rest _ (by decide) (by decide))
    rw [e1, e2, e3, e4]
    have hq0 : ((apDict a z p q).set "omegalm" (.modesR w1') : DataV K C).has "phaselm_zeroecc" = !q.isEmpty := by
      unfold Dict.has
      rw [Dict.get?_set, apDict_get]
      cases hqe : q.isEmpty <;> simp
    rw [hq0]
    rcases hcase with ⟨c1, x, c2, _⟩ | ⟨c1, c2, c3, t2, w2, c4, c5, _⟩ | ⟨c1, c2, _⟩
    · rw [if_pos c1, getItem_of c2]; exact ⟨_, rfl⟩
    · rw [if_neg (by simp [c1]), if_pos (by simp [c2, c3]), c4]
      have : getR ((apDict a z p q : DataV K C).set "omegalm" (.modesR w1')) "phaselm_zeroecc" = .ok q := by
        apply getR_of; rw [Dict.get?_set, apDict_get]; simp [c2]
      rw [this]
      simp only [ok_bind]
      rw [c5]; exact ⟨_, rfl⟩
    · rw [if_neg (by simp [c1]), if_neg]
      · exact ⟨_, rfl⟩
      · rcases c2 with c2 | c2 <;> simp [c2]
  obtain ⟨d', hd'⟩ := hap
  have hnd : ∃ nd', newData lib v' = .ok nd' := by
    unfold newData
    rw [if_pos ((Dict.has_iff_get? _ _).mpr ⟨_, ht'⟩), getItem_of ht', hd']
    simp only [ok_bind]
    split
    · rename_i hh
      obtain ⟨e, he⟩ := (Dict.has_iff_get? _ _).mp hh
      rw [getItem_of he]; exact ⟨_, rfl⟩
    · exact ⟨_, rfl⟩
  obtain ⟨nd', hnd'⟩ := hnd
  have S' := newData_spec hnd'
  refine ⟨nd', hnd', ?_, ?_, ?_, ?_⟩
  · intro t2 ht2
    rw [S.t.2, ht] at ht2
    cases ht2
    rw [S'.t.2, ht']
  · obtain ⟨x, y, x1, _, x3, _⟩ := S.amp
    obtain ⟨x', y', x1', _, x3', _⟩ := S'.amp
    rw [R _ _ _ (Or.inl rfl) (Or.inl rfl), x1] at x1'
    cases x1'
    rw [x3, x3']
  · obtain ⟨x, y, _, x1, _, x3, _⟩ := S.omega
    obtain ⟨x', y', _, x1', _, x3', _⟩ := S'.omega
    rw [R _ _ _ (Or.inr rfl) (Or.inl rfl), x1] at x1'
    cases x1'
    rw [x3, x3']
  · obtain ⟨x, y, wn, x1, _, _, _, x4, x5, _⟩ := S.omega
    obtain ⟨x', y', wn', x1', _, _, _, x4', x5', _⟩ := S'.omega
    rw [hph] at x1
    rw [R _ _ _ (Or.inr rfl) (Or.inl rfl), hph] at x1'
    cases x1
    cases x1'
    refine ⟨w1, w1', ?_, ?_, hw1⟩
    · rw [x4]
      congr 1
      rcases hw with hw | ⟨hw, t2, w2, ht2, hw2, e⟩
      · rcases x5 with x5 | ⟨x5, _⟩
        · rw [hw] at x5; cases x5; rfl
        · rw [hw] at x5; cases x5
      · rcases x5 with x5 | ⟨_, t3, w3, ht3, hw3, e3⟩
        · rw [hw] at x5; cases x5
        · rw [ht2] at ht3; cases ht3
          rw [hw2] at hw3; cases hw3
          rw [e3, e]
    · rw [x4']
      congr 1
      rcases hcase1 with ⟨c1, c2⟩ | ⟨c1, c2⟩
      · rcases x5' with x5' | ⟨x5', _⟩
        · rw [c2] at x5'; cases x5'; rfl
        · rw [c2] at x5'; cases x5'
      · rcases x5' with x5' | ⟨_, t3, w3, ht3, hw3, e3⟩
        · rw [(has_false_iff _ _).mp c1] at x5'; cases x5'
        · rw [getArr_of ht'] at ht3; cases ht3
          rw [c2] at hw3; cases hw3
          rw [e3]

theorem npZip_units (f : K → K → K) (k : K) (hf : ∀ x y, f (x / k) (y / k) = f x y / k) (a b : List K) :
    npZip f (a.map (· / k)) (b.map (· / k)) = (npZip f a b).map (List.map (· / k)) := by
  unfold npZip
  rw [List.length_map, List.length_map]
  split
  · simp only [Except.map]
    congr 1
    rw [List.zipWith_map, List.map_zipWith]
    congr 1
    funext x y
    exact hf x y
  · rfl

theorem gwQuantities_units {pr : Bool} {k : K} {nd nd' : DataV K C} {amp phase omega : List K}
    (h : gwQuantities pr nd "" = .ok (amp, phase, omega)) (ha : nd'.get? "amplm" = nd.get? "amplm")
    (hph : nd'.get? "phaselm" = nd.get? "phaselm") {w w' : Dict LM (List K)} (hw : nd.get? "omegalm" = some (.modesR w))
    (hw' : nd'.get? "omegalm" = some (.modesR w')) (hm : ∀ m, w'.get? m = (w.get? m).map (List.map (· / k))) :
    gwQuantities pr nd' "" = .ok (amp, phase, omega.map (· / k)) := by
  have ea : getR nd' ("amplm" ++ "") = getR nd ("amplm" ++ "") := getR_congr ha
  have ep : getR nd' ("phaselm" ++ "") = getR nd ("phaselm" ++ "") := getR_congr hph
  have ew : getR nd ("omegalm" ++ "") = .ok w := getR_of hw
  have ew' : getR nd' ("omegalm" ++ "") = .ok w' := getR_of hw'
  have item : ∀ {m x}, w.getItem m = .ok x → w'.getItem m = .ok (x.map (· / k)) := by
    intro m x hx
    apply getItem_of
    rw [hm, getItem_ok hx]; rfl
  unfold gwQuantities at h ⊢
  rw [ea, ep, ew']
  rw [ew] at h
  obtain ⟨a, h1, h⟩ := bind_ok h
  obtain ⟨p, h2, h⟩ := bind_ok h
  rw [h1, h2]
  simp only [ok_bind] at h ⊢
  split at h
  · rename_i hb
    rw [if_pos hb]
    obtain ⟨a22, h3, h⟩ := bind_ok h
    obtain ⟨p22, h4, h⟩ := bind_ok h
    obtain ⟨w22, h5, h⟩ := bind_ok h
    cases h
    rw [h3, h4, item h5]
    rfl
  · rename_i hb
    rw [if_neg hb]
    split at h
    · cases h
    rename_i hb1
    rw [if_neg hb1]
    split at h
    · cases h
    rename_i hb2
    rw [if_neg hb2]
    obtain ⟨a22, h3, h⟩ := bind_ok h
    obtain ⟨a2m, h4, h⟩ := bind_ok h
    obtain ⟨A, h5, h⟩ := bind_ok h
    obtain ⟨p22, h6, h⟩ := bind_ok h
    obtain ⟨p2m, h7, h⟩ := bind_ok h
    obtain ⟨P, h8, h⟩ := bind_ok h
    obtain ⟨w22, h9, h⟩ := bind_ok h
    obtain ⟨w2m, h10, h⟩ := bind_ok h
    obtain ⟨W, h11, h⟩ := bind_ok h
    cases h
    rw [h3, h4, h6, h7, item h9, item h10]
    simp only [ok_bind]
    rw [h5, h8, npZip_units _ k (fun x y => by ring), h11]
    rfl

theorem argmin_map_pos {l : List K} {k : K} (hk : 0 < k) {i : ℕ} (h : argmin l = .ok i) :
    argmin (l.map (fun x => k * x)) = .ok i := by
  obtain ⟨hi, h1, h2⟩ := argmin_spec h
  apply argmin_unique (by simpa using hi)
  · intro j hj
    rw [List.getElem_map, List.getElem_map]
    exact mul_le_mul_of_nonneg_left (h1 j (by simpa using hj)) hk.le
  · intro j hj hlt
    rw [List.getElem_map, List.getElem_map]
    exact mul_lt_mul_of_pos_left (h2 j (by simpa using hj) hlt) hk

/-- Measuring time in another unit and from another origin gives the same width, the same cut and the same merger
amplitude; the merger time is converted. -/
theorem C65_units (lib : WaveLib K C) (pr : Flag) (frame : String) (v v' nd : DataV K C) (n : Option K) (r : Analysis K)
    (k c : K) (hk : 0 < k) (hp : ProperDicts v) (hu : NewUnits k c v v') (hf : pr ≠ .isTrue ∨ frame ≠ "inertial")
    (h : processData lib pr frame v n = .ok (nd, r)) :
    ∃ nd', processData lib pr frame v' n = .ok (nd', ⟨k * r.tMerger + c, r.ampMerger, r.width, r.cut⟩) := by
  have hm : mustTransform pr frame = false := by
    unfold mustTransform; rcases hf with hf | hf <;> simp [hf]
  obtain ⟨v0, full, h1, h2, h3, h4, h5⟩ := processData_ok h
  rw [hm] at h2
  cases h2
  obtain ⟨t, total, a, x, mi, amp, phase, omega, pm, om, p0, g1, g2, g3, g4, g5, g6, g7, g8, g9, g10, g11, g12, g13, g14⟩ :=
    (analyse_spec h4).parts
  have ht : ∃ t, v.get? "t" = some (.arr t) := ⟨t, (newData_spec h3).t.2 ▸ g1⟩
  obtain ⟨nd', q1, q2, q3, q4, w, w', q5, q6, q7⟩ := newData_units hk hp hu ht h3
  have hpk : peakTime (t.map (fun x => k * x + c)) total = .ok (k * r.tMerger + c, x) := by
    rw [C17_time_affine t total k c hk, g4]; rfl
  have hmi : argmin ((t.map (fun x => k * x + c)).map (fun x => |x - (k * r.tMerger + c)|)) = .ok mi := by
    have := argmin_map_pos hk g5
    rw [List.map_map] at this ⊢
    rw [← this]
    congr 1
    apply List.map_congr_left
    intro y _
    simp only [Function.comp]
    have : k * y + c - (k * r.tMerger + c) = k * (y - r.tMerger) := by ring
    rw [this, abs_mul, abs_of_pos hk]
  have hgw := gwQuantities_units g6 q3 q4 q5 q6 q7
  have hom : pyGet (omega.map (· / k)) mi = .ok (om / k) := by
    apply pyGet_of_getElem?
    rw [List.getElem?_map, pyGet_getElem? g9]; rfl
  have gt : ∀ {i y}, pyGet t i = .ok y → pyGet (t.map (fun x => k * x + c)) i = .ok (k * y + c) := by
    intro i y hy
    apply pyGet_of_getElem?
    rw [List.getElem?_map, pyGet_getElem? hy]; rfl
  have hwd : peakWidth lib.pi (t.map (fun x => k * x + c)) phase pm = .ok r.width := by
    unfold peakWidth at g13 ⊢
    obtain ⟨i2, e1, g13⟩ := bind_ok g13
    obtain ⟨t2, e2, g13⟩ := bind_ok g13
    obtain ⟨i1, e3, g13⟩ := bind_ok g13
    obtain ⟨t1, e4, g13⟩ := bind_ok g13
    obtain ⟨s1, e5, g13⟩ := bind_ok g13
    obtain ⟨s0, e6, g13⟩ := bind_ok g13
    rw [e1, e3]
    simp only [ok_bind]
    rw [gt e2, gt e4, gt e5, gt e6]
    simp only [ok_bind]
    have f1 : k * s1 + c - (k * s0 + c) = k * (s1 - s0) := by ring
    have f2 : k * t1 + c - (k * t2 + c) = k * (t1 - t2) := by ring
    split at g13
    · cases g13
    · rename_i hne
      rw [f1, f2, if_neg (mul_ne_zero hk.ne' hne), mul_div_mul_left _ _ hk.ne']
      exact g13
  have hrun := analyse_of (q2 t g1) (q3.trans g2) g3 hpk hmi hgw g7 g8 hom g10 g11 (div_nonneg g12 hk.le) hwd n (r := r)
  have hs : checkShape v'.has = .ok () := by
    have e : ∀ key, key ≠ "t" → key ≠ "omegalm" → v'.has key = v.has key := fun key k1 k2 => Dict.has_congr (hu.rest key k1 k2)
    rw [← h1]
    unfold checkShape
    rw [e _ (by decide) (by decide), e _ (by decide) (by decide), e _ (by decide) (by decide), e _ (by decide) (by decide),
      e _ (by decide) (by decide), e _ (by decide) (by decide)]
  unfold processData
  rw [hs, hm]
  simp only [ok_bind, Bool.false_eq_true, if_false, pure_eq_ok]
  rw [q1]
  simp only [ok_bind]
  rw [hrun]
  rcases g14 with ⟨rfl, hc⟩ | ⟨m, idx, rfl, hm0, hidx, hc⟩
  · simp only [ok_bind]
    rw [hc]
    exact ⟨_, rfl⟩
  · simp only [if_neg (not_lt.mpr hm0), hidx, ok_bind]
    obtain ⟨p, _, _, _, _, hph, _⟩ := (newData_spec q1).omega
    have hcd : ∃ nd2, cutData idx nd' = .ok nd2 := by
      unfold cutData
      rw [getItem_of (q3.trans g2)]
      simp only [ok_bind, cutEntry]
      rw [getItem_of (by rw [Dict.get?_set, if_neg (by decide)]; exact hph)]
      simp only [ok_bind, cutEntry]
      rw [getItem_of (by rw [Dict.get?_set, if_neg (by decide), Dict.get?_set, if_neg (by decide)]; exact q6)]
      simp only [ok_bind, cutEntry]
      rw [getArr_of (by
        rw [Dict.get?_set, if_neg (by decide), Dict.get?_set, if_neg (by decide), Dict.get?_set, if_neg (by decide)]
        exact q2 t g1)]
      exact ⟨_, rfl⟩
    obtain ⟨nd2, hnd2⟩ := hcd
    refine ⟨nd2, ?_⟩
    simp only [pure_eq_ok, ok_bind]
    rw [hnd2, hc]
    rfl

end

end GwEcc
