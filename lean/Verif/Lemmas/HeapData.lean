import Verif.Lemmas.Heap

/-!
# `process_data_dict` on objects computes the same data as on values
-/

set_option linter.unusedSectionVars false

namespace GwEcc

open Spec

variable {K C : Type} [Field K] [LinearOrder K]

theorem HasR.update_nil {h : Heap K C} {d : Dict LM Ref} {m : Dict LM (List K)} (a : HasR h d m) :
    HasR h (Dict.update [] d) (Dict.update [] m) := by
  constructor
  · rw [readModesR_update, a.1]; rfl
  · intro p hp
    rcases mem_update hp with h | h
    · cases h
    · exact a.2 p h

theorem ok_bind_self {α : Type} (p : Py α) : (p >>= fun a => .ok a) = p := by cases p <;> rfl

theorem refsR_sim {h : Heap K C} (w : WF h) (d : Dict String Ref) (key : String) :
    Sim ∅ (refsR d key) (getR (readTop h d) key) (fun h' m v => h' = h ∧ HasR h m v ∧ ∃ r, d.get? key = some r ∧ h[r]? = some (.modesR m)) h := by
  unfold refsR getR
  cases hg : d.get? key with
  | none =>
    have e1 : d.getItem key = .error .keyError := by unfold Dict.getItem; rw [hg]
    have e2 : (readTop h d).getItem key = .error .keyError := by rw [readTop_getItem, e1]; rfl
    rw [e1, e2]
    exact ⟨h, w, Keep.refl _ _, rfl⟩
  | some r =>
    have e1 : d.getItem key = .ok r := getItem_of hg
    have e2 : (readTop h d).getItem key = .ok (readEntry h r) := by rw [readTop_getItem, e1]; rfl
    rw [e1, e2]
    refine ⟨h, w, Keep.refl _ _, ?_⟩
    rw [HM.lift_bind_ok rfl, HM.read_bind]
    unfold readEntry
    cases hc : h[r]? with
    | none => rfl
    | some c =>
      cases c with
      | nums l => rfl
      | cnums l => rfl
      | other => rfl
      | top d => rfl
      | view b s m => rfl
      | modesR m => exact ⟨m, rfl, rfl, ⟨rfl, w _ _ hc⟩, r, rfl, hc⟩
      | modesC m => rfl

theorem realModesH_sim (conv : List C → List K) (name suffix : String) (root : Ref) {h : Heap K C} (w : WF h) :
    Sim ∅ (realModesH conv name suffix root) (realModes conv name suffix (readV h root)) HasR h := by
  unfold realModesH
  refine Sim.read ?_
  by_cases hh : (topDict h root).has (name ++ suffix) = true
  · rw [if_pos hh]
    have hv : (readV h root).has (name ++ suffix) = true := by unfold readV; rw [readTop_has, hh]
    unfold realModes
    rw [if_pos hv]
    refine Sim.bind (refsR_sim w _ _) ?_
    rintro h' m v _ w' _ ⟨rfl, hm, _⟩
    exact Sim.pure w' hm.update_nil
  · rw [if_neg hh]
    refine Sim.read ?_
    have := Sim.liftBind (S := ∅) (p := realModes conv name suffix (readV h root)) (g := fun m => .ok m) w
      fun m _ => allocR_sim m h w
    rwa [ok_bind_self] at this

/-- References to the amplitudes (or phases), and to the quasicircular ones if there are any. -/
def pairDict (name : String) (ra : ℕ) (rz : Option ℕ) : Dict String Ref :=
  (name, ra) :: (match rz with
    | none => []
    | some r => [(name ++ "_zeroecc", r)])

theorem readModesR_isEmpty (h : Heap K C) (d : Dict LM Ref) : (readModesR h d).isEmpty = d.isEmpty := by
  unfold readModesR; cases d <;> rfl

theorem realModesDictH_sim (conv : List C → List K) (name : String) {root : Ref} {h : Heap K C} (w : WF h)
    (hroot : root < h.length) :
    Sim ∅ (realModesDictH conv name root) (realModesDict conv name (readV h root))
      (fun h' d v => HasTop h.length h' d v ∧ ∃ (ra : ℕ) (rz : Option ℕ), d = pairDict name ra rz ∧ h.length ≤ ra ∧ ra < h'.length ∧
        ∀ r ∈ rz, ra < r ∧ r < h'.length) h := by
  unfold realModesDictH realModesDict
  refine Sim.bind (realModesH_sim conv name "" root w) ?_
  intro h1 a va _ w1 k1 ha
  have hv1 : readV h1 root = readV h root := readV_keep k1 (NoArr.empty _) w hroot (by simp) (by simp)
  rw [← hv1]
  refine Sim.bind (realModesH_sim conv name "_zeroecc" root w1) ?_
  intro h2 z vz _ w2 k2 hz
  have ha2 := ha.keep k2 (NoArr.empty _) w1
  have hlen := k1.1.trans k2.1
  have ka := Keep.append h2 [Cell.modesR a]
  refine Sim.allocBind w2 (ha2.keep ka (NoArr.empty _) w2).2 fun w3 => ?_
  have ha3 := ha2.keep ka (NoArr.empty _) w2
  have hz3 := hz.keep ka (NoArr.empty _) w2
  have hra : readEntry (h2 ++ [Cell.modesR a]) h2.length = .modesR va := by
    rw [readEntry_modesR (getElem?_snoc _ _), ha3.1]
  by_cases he : z.isEmpty = true
  · rw [if_pos he]
    have hve : vz.isEmpty = true := by rw [← hz.1, readModesR_isEmpty, he]
    refine Sim.pure w3 ⟨⟨?_, ?_, ?_⟩, h2.length, none, rfl, hlen, by simp, by simp⟩
    · unfold withZeroecc readTop
      rw [if_pos hve]
      simp [hra]
    · intro p hp; simp only [List.mem_singleton] at hp; subst hp; simp
    · intro p hp; simp only [List.mem_singleton] at hp; subst hp; exact hlen
  · rw [if_neg he]
    have hve : ¬ vz.isEmpty = true := by rw [← hz.1, readModesR_isEmpty]; exact he
    have kz := Keep.append (h2 ++ [Cell.modesR a]) [Cell.modesR z]
    refine Sim.allocBind w3 (hz3.keep kz (NoArr.empty _) w3).2 fun w4 => ?_
    have hz4 := hz3.keep kz (NoArr.empty _) w3
    have hrz := readEntry_modesR (getElem?_snoc (h2 ++ [Cell.modesR a]) (Cell.modesR z))
    rw [hz4.1] at hrz
    have hra4 : readEntry (h2 ++ [Cell.modesR a] ++ [Cell.modesR z]) h2.length = .modesR va := by
      rw [readEntry_keep kz (NoArr.empty _) w3 (by simp) (by simp), hra]
    refine Sim.pure w4 ⟨⟨?_, ?_, ?_⟩, h2.length, some (h2 ++ [Cell.modesR a]).length, rfl, hlen, by simp, ?_⟩
    · unfold withZeroecc readTop
      rw [if_neg hve]
      simp only [List.map_cons, List.map_nil, hra4, hrz]
    · intro p hp
      simp only [List.mem_cons, List.not_mem_nil, or_false] at hp
      rcases hp with rfl | rfl <;> simp
    · intro p hp
      simp only [List.mem_cons, List.not_mem_nil, or_false] at hp
      rcases hp with rfl | rfl <;> simp <;> omega
    · intro r hr
      simp only [Option.mem_def, Option.some.injEq] at hr
      subst hr
      simp

theorem omegaModesH_sim (root : Ref) (tKey pKey : String) (d : Dict String Ref) {h : Heap K C} (w : WF h) :
    Sim ∅ (omegaModesH root tKey d pKey)
      (do
        let t ← getArr (readV h root) tKey
        let p ← getR (readTop h d) pKey
        let w ← omegaModes t p
        pure (.modesR w))
      (fun h' (r : ℕ) e => readEntry h' r = e ∧ h.length ≤ r ∧ r < h'.length) h := by
  unfold omegaModesH
  refine Sim.read (Sim.liftBind w fun t _ => Sim.read (Sim.liftBind w fun p _ => Sim.liftBind w fun m _ => ?_))
  exact allocEntry_sim _ h w

/-- The objects in the dictionary of amplitudes, phases and frequencies: all of them new, except that frequencies given by
the caller (`top`) are the caller's objects.  `n` is the size of memory before. -/
structure Apo (n : ℕ) (top : Dict String Ref) (len : ℕ) (d : Dict String Ref) : Prop where
  parts : ∃ (ra rp rw : ℕ) (az pz wz : Option ℕ),
    (∀ k, d.get? k = if k = "amplm" then some ra else if k = "phaselm" then some rp else if k = "omegalm" then some rw else
      if k = "amplm_zeroecc" then az else if k = "phaselm_zeroecc" then pz else if k = "omegalm_zeroecc" then wz else none) ∧
    n ≤ ra ∧ (∀ r ∈ az, ra < r ∧ r < rp) ∧ ra < rp ∧ (∀ r ∈ pz, rp < r ∧ r < len) ∧ rp < len ∧
    (top.get? "omegalm" = some rw ∨ (top.get? "omegalm" = none ∧ rp < rw ∧ rw < len ∧ ∀ r ∈ pz, r < rw)) ∧
    (∀ r ∈ wz, top.get? "omegalm_zeroecc" = some r ∨ (rp < r ∧ r < len ∧ (∀ q ∈ pz, q < r) ∧
      (top.get? "omegalm" = some rw ∨ rw < r)))
  nodup : d.keys.Nodup

theorem pairs_get (ra rp : ℕ) (az pz : Option ℕ) (k : String) :
    (Dict.update (Dict.update [] (pairDict "amplm" ra az)) (pairDict "phaselm" rp pz)).get? k =
      if k = "amplm" then some ra else if k = "phaselm" then some rp else
      if k = "amplm_zeroecc" then az else if k = "phaselm_zeroecc" then pz else none := by
  unfold pairDict
  cases az <;> cases pz <;> simp only [Dict.update, List.foldl_cons, List.foldl_nil, Dict.get?_set, Dict.get?_nil] <;>
    (split_ifs <;> simp_all)

theorem ampPhaseOmegaH_sim (lib : WaveLib K C) {root : Ref} {h : Heap K C} (w : WF h) (hroot : root < h.length) :
    Sim ∅ (ampPhaseOmegaH lib root) (ampPhaseOmega lib (readV h root))
      (fun h' d v => HasTop 0 h' d v ∧ Apo h.length (topDict h root) h'.length d) h := by
  unfold ampPhaseOmegaH ampPhaseOmega
  refine Sim.bind (realModesDictH_sim lib.abs "amplm" w hroot) ?_
  rintro h1 amp vamp _ w1 k1 ⟨ha, ra, az, rfl, hra, hra1, haz⟩
  have hv1 : readV h1 root = readV h root := readV_keep k1 (NoArr.empty _) w hroot (by simp) (by simp)
  have hroot1 := hroot.trans_le k1.1
  rw [← hv1]
  refine Sim.bind (realModesDictH_sim lib.phase "phaselm" w1 hroot1) ?_
  rintro h2 ph vph _ w2 k2 ⟨hp, rp, pz, rfl, hrp, hrp2, hpz⟩
  have hv2 : readV h2 root = readV h1 root := readV_keep k2 (NoArr.empty _) w1 hroot1 (by simp) (by simp)
  have hroot2 := hroot1.trans_le k2.1
  have ht2 : topDict h2 root = topDict h root := (topDict_keep k2 hroot1 (by simp)).trans (topDict_keep k1 hroot (by simp))
  rw [← hv2]
  refine Sim.read ?_
  rw [ht2]
  have ha2 := ha.keep' k2 w1
  set d := Dict.update (Dict.update [] (pairDict "amplm" ra az)) (pairDict "phaselm" rp pz) with hd
  have hdv : readTop h2 d = Dict.update (Dict.update [] vamp) vph := by
    rw [hd, readTop_update, readTop_update, ha2.val, hp.val]; rfl
  have hdlt : ∀ p ∈ d, p.2 < h2.length := by
    intro p hpd
    rcases mem_update hpd with hm | hm
    · rcases mem_update hm with hm | hm
      · cases hm
      · exact ha2.lt p hm
    · exact hp.lt p hm
  have hdn : d.keys.Nodup := nodup_update (nodup_update (by simp [Dict.keys]))
  have hdtop : HasTop 0 h2 d (Dict.update (Dict.update [] vamp) vph) := ⟨hdv, hdlt, fun _ _ => Nat.zero_le _⟩
  -- the frequency
  have hom : Sim ∅ (if (topDict h root).has "omegalm" then HM.lift ((topDict h root).getItem "omegalm")
        else omegaModesH root "t" d "phaselm" : HM K C Ref)
      (if (readV h2 root).has "omegalm" then (readV h2 root).getItem "omegalm"
        else do
          let t ← getArr (readV h2 root) "t"
          let p ← getR (Dict.update (Dict.update [] vamp) vph) "phaselm"
          let w ← omegaModes t p
          pure (.modesR w))
      (fun h' (r : ℕ) e => readEntry h' r = e ∧ r < h'.length ∧ ((topDict h root).get? "omegalm" = some r ∨
        ((topDict h root).get? "omegalm" = none ∧ h2.length ≤ r))) h2 := by
    have hv : (readV h2 root).has "omegalm" = (topDict h root).has "omegalm" := by unfold readV; rw [readTop_has, ht2]
    rw [hv]
    cases hh : (topDict h root).has "omegalm" with
    | true =>
      simp only [if_true]
      obtain ⟨r, hr⟩ := (Dict.has_iff_get? _ _).1 hh
      have e1 : (topDict h root).getItem "omegalm" = .ok r := getItem_of hr
      have e2 : (readV h2 root).getItem "omegalm" = .ok (readEntry h2 r) := by
        unfold readV; rw [readTop_getItem, ht2, e1]; rfl
      rw [e1, e2]
      exact Sim.pure w2 ⟨rfl, (topDict_lt w root _ (mem_of_get? hr)).trans_le (k1.1.trans k2.1), .inl hr⟩
    | false =>
      simp only [Bool.false_eq_true, if_false]
      have := omegaModesH_sim root "t" "phaselm" d w2
      rw [hdv] at this
      exact this.weaken (fun _ _ h => h) fun h' r e _ _ _ hr =>
        ⟨hr.1, hr.2.2, .inr ⟨(has_false_iff _ _).1 hh, hr.2.1⟩⟩
  refine Sim.bind hom ?_
  rintro h3 rw' ew _ w3 k3 ⟨hrw, hrwlt, hrwr⟩
  have hv3 : readV h3 root = readV h2 root := readV_keep k3 (NoArr.empty _) w2 hroot2 (by simp) (by simp)
  have hd3 := hdtop.keep' k3 w2
  rw [← hv3]
  have hvz : ∀ key, (readV h3 root).has key = (topDict h root).has key := by
    intro key
    unfold readV; rw [readTop_has, topDict_keep k3 hroot2 (by simp), ht2]
  have hdhas : (Dict.set (Dict.update (Dict.update [] vamp) vph) "omegalm" ew).has "phaselm_zeroecc" =
      (d.set "omegalm" rw').has "phaselm_zeroecc" := by
    rw [← hd3.val, ← hrw, ← readTop_set, readTop_has]
  simp only [hvz, hdhas]
  have hd3' : HasTop 0 h3 (d.set "omegalm" rw') (Dict.set (Dict.update (Dict.update [] vamp) vph) "omegalm" ew) := by
    refine ⟨by rw [readTop_set, hd3.val, hrw], ?_, fun _ _ => Nat.zero_le _⟩
    intro p hpd
    rcases mem_set hpd with hm | hm
    · exact hd3.lt p hm
    · subst hm; exact hrwlt
  have hl12 := k1.1
  have hl23 := k2.1
  have hl3 := k3.1
  have hfirst : (∀ r ∈ az, ra < r ∧ r < rp) ∧ ra < rp ∧ (∀ r ∈ pz, rp < r ∧ r < h2.length) := by
    refine ⟨fun r hr => ⟨(haz r hr).1, (haz r hr).2.trans_le hrp⟩, hra1.trans_le hrp, fun r hr => hpz r hr⟩
  have hgd : ∀ k, (Dict.set d "omegalm" rw').get? k = if k = "amplm" then some ra else if k = "phaselm" then some rp else
      if k = "omegalm" then some rw' else if k = "amplm_zeroecc" then az else if k = "phaselm_zeroecc" then pz else none := by
    intro k
    rw [Dict.get?_set, hd, pairs_get]
    by_cases hk : k = "omegalm"
    · subst hk; simp
    · simp [hk]
  have hrwfin : ∀ len, h3.length ≤ len → (topDict h root).get? "omegalm" = some rw' ∨ ((topDict h root).get? "omegalm" = none ∧ rp < rw' ∧ rw' < len ∧ ∀ r ∈ pz, r < rw') := by
    intro len hlen
    rcases hrwr with h | ⟨h, hle⟩
    · exact .inl h
    · exact .inr ⟨h, by omega, lt_of_lt_of_le hrwlt hlen, fun r hr => (hpz r hr).2.trans_le hle⟩
  -- a frequency for the quasicircular data
  have add : ∀ h4 rz ez, WF h4 → Keep ∅ h3 h4 → readEntry h4 rz = ez → rz < h4.length →
      ((topDict h root).get? "omegalm_zeroecc" = some rz ∨ h3.length ≤ rz) →
      HasTop 0 h4 ((d.set "omegalm" rw').set "omegalm_zeroecc" rz)
        (Dict.set (Dict.set (Dict.update (Dict.update [] vamp) vph) "omegalm" ew) "omegalm_zeroecc" ez) ∧
      Apo h.length (topDict h root) h4.length ((d.set "omegalm" rw').set "omegalm_zeroecc" rz) := by
    intro h4 rz ez w4 k4 hrz hrzlt hor
    have hd4 := hd3'.keep' k4 w3
    have hl4 := k4.1
    refine ⟨⟨by rw [readTop_set, hd4.val, hrz], ?_, fun _ _ => Nat.zero_le _⟩, ?_⟩
    · intro p hpd
      rcases mem_set hpd with hm | hm
      · exact hd4.lt p hm
      · subst hm; exact hrzlt
    · refine ⟨⟨ra, rp, rw', az, pz, some rz, ?_, hra, hfirst.1, hfirst.2.1, ?_, by omega, hrwfin _ hl4, ?_⟩,
        Dict.nodup_set _ _ (Dict.nodup_set _ _ hdn)⟩
      · intro k
        rw [Dict.get?_set, hgd]
        by_cases hk : k = "omegalm_zeroecc"
        · subst hk; simp
        · simp [hk]
      · intro r hr
        exact ⟨(hfirst.2.2 r hr).1, by have := (hfirst.2.2 r hr).2; omega⟩
      · intro r hr
        simp only [Option.mem_def, Option.some.injEq] at hr
        subst hr
        rcases hor with h | hge
        · exact .inl h
        · refine .inr ⟨by omega, hrzlt, fun q hq => by have := (hpz q hq).2; omega, ?_⟩
          rcases hrwr with h | ⟨_, _⟩
          · exact .inl h
          · exact .inr (by omega)
  cases hz : (topDict h root).has "omegalm_zeroecc" with
  | true =>
    simp only [if_true]
    obtain ⟨r, hr⟩ := (Dict.has_iff_get? _ _).1 hz
    have e1 : (topDict h root).getItem "omegalm_zeroecc" = .ok r := getItem_of hr
    have e2 : (readV h3 root).getItem "omegalm_zeroecc" = .ok (readEntry h3 r) := by
      unfold readV; rw [readTop_getItem, topDict_keep k3 hroot2 (by simp), ht2, e1]; rfl
    rw [e1, e2]
    exact Sim.pure w3 (add h3 r _ w3 (Keep.refl _ _) rfl
      (((topDict_lt w root _ (mem_of_get? hr)).trans_le (k1.1.trans k2.1)).trans_le k3.1) (.inl hr))
  | false =>
    simp only [Bool.false_eq_true, if_false]
    by_cases hc : ((d.set "omegalm" rw').has "phaselm_zeroecc" && (topDict h root).has "t_zeroecc") = true
    · rw [if_pos hc, if_pos hc]
      have := omegaModesH_sim root "t_zeroecc" "phaselm_zeroecc" (d.set "omegalm" rw') w3
      rw [hd3'.val] at this
      have key := Sim.bind (f := fun rz => (pure ((d.set "omegalm" rw').set "omegalm_zeroecc" rz) : HM K C _))
        (g := fun ez => (pure (Dict.set (Dict.set (Dict.update (Dict.update [] vamp) vph) "omegalm" ew) "omegalm_zeroecc" ez) :
          Py (DataV K C)))
        (R' := fun h' d v => HasTop 0 h' d v ∧ Apo h.length (topDict h root) h'.length d) this
        fun h4 rz ez _ w4 k4 hr => Sim.pure w4 (add h4 rz ez w4 k4 hr.1 hr.2.2 (.inr hr.2.1))
      simpa [bind_assoc] using key
    · rw [if_neg hc, if_neg hc]
      refine Sim.pure w3 ⟨hd3', ⟨⟨ra, rp, rw', az, pz, none, ?_, hra, hfirst.1, hfirst.2.1, ?_, by omega,
        hrwfin _ le_rfl, by simp⟩, Dict.nodup_set _ _ hdn⟩⟩
      · intro k
        rw [hgd]
        simp only [ite_self]
      · intro r hr
        exact ⟨(hfirst.2.2 r hr).1, by have := (hfirst.2.2 r hr).2; omega⟩

end GwEcc
