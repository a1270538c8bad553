import Verif.Lemmas.HeapProcess

/-!
# The frame transformation on objects
-/

set_option linter.unusedSectionVars false

namespace GwEcc

open Spec

variable {K C : Type} [Field K] [LinearOrder K]

/-- Sequencing when the second program only changes objects the caller did not have. -/
theorem Sim.bindFresh {α β α' β' : Type} {S T : Set ℕ} {p : HM K C α} {v : Py β} {R : Heap K C → α → β → Prop} {h : Heap K C}
    {f : α → HM K C α'} {g : β → Py β'} {R' : Heap K C → α' → β' → Prop} (hp : Sim S p v R h)
    (hST : ∀ i < h.length, i ∈ S → i ∈ T)
    (hf : ∀ h' a b, v = .ok b → WF h' → Keep S h h' → R h' a b →
      ∃ U : Set ℕ, (∀ i < h.length, i ∈ U → i ∈ T) ∧ Sim U (f a) (g b) R' h') : Sim T (p >>= f) (v >>= g) R' h := by
  obtain ⟨h', hw, hk, hm⟩ := hp
  cases v with
  | error e => exact ⟨h', hw, hk.mono hST, HM.bind_error hm⟩
  | ok b =>
    obtain ⟨a, hpa, hR⟩ := hm
    obtain ⟨U, hU, h'', hw', hk', hm'⟩ := hf h' a b rfl hw hk hR
    refine ⟨h'', hw', ⟨hk.1.trans hk'.1, fun i hi hT => ?_⟩, ?_⟩
    · rw [hk'.2 i (hi.trans_le hk.1) (fun hu => hT (hU i hi hu)), hk.2 i hi (fun hs => hT (hST i hi hs))]
    rw [HM.bind_ok hpa]
    exact hm'

theorem noArr_top {h : Heap K C} {r : ℕ} {d : Dict String Ref} (hr : h[r]? = some (.top d)) : NoArr {r} h := by
  intro i hi c hc
  simp only [Set.mem_singleton_iff] at hi
  subst hi
  rw [hr] at hc; cases hc
  exact ⟨fun _ => by simp, fun _ _ _ => by simp, fun _ => by simp⟩

/-- Writing to a `dataDict` object does not change the contents of entries. -/
theorem readTop_setTop {h : Heap K C} (w : WF h) {r : ℕ} {d0 d1 d : Dict String Ref} (hr : h[r]? = some (.top d0))
    (hd : ∀ p ∈ d, p.2 < h.length) : readTop (h.set r (.top d1)) d = readTop h d := by
  unfold readTop
  apply List.map_congr_left
  intro p hp
  by_cases e : p.2 = r
  · have e1 : readEntry h p.2 = .other := by unfold readEntry; rw [e, hr]
    have e2 : readEntry (h.set r (.top d1)) p.2 = .other := by
      unfold readEntry; rw [e, List.getElem?_set_self (lt_of_getElem? hr)]
    rw [e1, e2]
  · rw [readEntry_keep (keep_set h r _) (noArr_top hr) w (hd p hp) (by simpa using e)]

theorem rotatedH_sim (lib : WaveLib K C) (root : Ref) (tag : String) {h : Heap K C} (w : WF h) :
    Sim ∅ (rotatedH lib root tag) (rotatedModes lib (readV h root) tag)
      (fun h' (r : ℕ) m => readEntry h' r = .modesC m ∧ h.length ≤ r ∧ r < h'.length) h := by
  unfold rotatedH
  refine Sim.read ?_
  have := Sim.liftBind (S := ∅) (p := rotatedModes lib (readV h root) tag) (g := fun m => .ok m)
    (f := fun m => allocEntry (.modesC m)) (R := fun h' (r : ℕ) m => readEntry h' r = .modesC m ∧ h.length ≤ r ∧ r < h'.length) w
    fun m _ => by
      obtain ⟨h', w', k', a, e, hr⟩ := allocEntry_sim (.modesC m) h w
      exact ⟨h', w', k', a, e, hr⟩
  rwa [ok_bind_self] at this

theorem deepcopy_sim (root : Ref) {h : Heap K C} (w : WF h) :
    Sim ∅ (deepcopy root) (.ok (readV h root)) (HasTop h.length) h := by
  unfold deepcopy
  exact Sim.read (allocTop_sim _ h w)

/-- A new `dataDict` object with new entries. -/
structure FreshTop (n : ℕ) (h : Heap K C) (r : ℕ) (v : DataV K C) : Prop where
  cell : ∃ d, h[r]? = some (.top d)
  val : readV h r = v
  le : n ≤ r
  entries : ∀ p ∈ topDict h r, n ≤ p.2

theorem allocTop_fresh {n : ℕ} {h : Heap K C} (w : WF h) {d : Dict String Ref} {v : DataV K C} (hd : HasTop n h d v)
    (hn : n ≤ h.length) : Sim ∅ (alloc (.top d)) (.ok v) (FreshTop n) h := by
  have k := Keep.append h [Cell.top d]
  have ht : topDict (h ++ [.top d]) h.length = d := by unfold topDict; rw [getElem?_snoc]
  refine ⟨h ++ [.top d], w.append (c := .top d) (fun p hp => (hd.lt p hp).trans_le k.1), k, h.length, rfl,
    ⟨d, getElem?_snoc _ _⟩, ?_, hn, ?_⟩
  · unfold readV; rw [ht]; exact (hd.keep' k w).val
  · rw [ht]; exact hd.le

/-- After the rotation: copy, put the rotated modes, remove some keys. -/
theorem finish_sim {n : ℕ} {root : ℕ} {key : String} {h : Heap K C} (w : WF h) {r : ℕ} {m : Dict LM (List C)}
    (hr : readEntry h r = .modesC m) (hn : n ≤ r) (hrl : r < h.length) (del : {V : Type} → Dict String V → Dict String V)
    (hmem : ∀ {V : Type} (d : Dict String V) p, p ∈ del d → p ∈ d)
    (hread : ∀ (h : Heap K C) d, readTop h (del d) = del (readTop h d)) (hnl : n ≤ h.length) :
    Sim ∅ (do
      let d ← deepcopy root
      alloc (.top (del (d.set key r))) : HM K C Ref) (.ok (del ((readV h root).set key (.modesC m)))) (FreshTop n) h := by
  have := Sim.bind (g := fun v => (.ok (del (Dict.set v key (.modesC m))) : Py (DataV K C)))
    (f := fun d => (alloc (.top (del (d.set key r))) : HM K C Ref)) (R' := FreshTop n) (deepcopy_sim root w) ?_
  · exact this
  · intro h1 d v hv w1 k1 hd
    have hr1 : readEntry h1 r = .modesC m := by rw [readEntry_keep k1 (NoArr.empty _) w hrl (by simp), hr]
    refine allocTop_fresh w1 ⟨by rw [hread, readTop_set, hd.val, hr1], ?_, ?_⟩ (hnl.trans k1.1)
    · intro p hp
      rcases mem_set (hmem _ _ hp) with h | h
      · exact hd.lt p h
      · subst h; exact hrl.trans_le k1.1
    · intro p hp
      rcases mem_set (hmem _ _ hp) with h | h
      · exact hnl.trans (hd.le p h)
      · subst h; exact hn

theorem transformH_sim (lib : WaveLib K C) (root : ℕ) (tag : String) {h : Heap K C} (w : WF h)
    (hcell : ∃ d, h[root]? = some (.top d)) :
    Sim {i | i = root ∧ (topDict h root).has ("hlm" ++ tag) = false} (transformH lib root tag)
      (transform lib (readV h root) tag) (FreshTop h.length) h := by
  obtain ⟨top, htop⟩ := hcell
  have htd : topDict h root = top := by unfold topDict; rw [htop]
  have hvh : (readV h root).has ("hlm" ++ tag) = top.has ("hlm" ++ tag) := by unfold readV; rw [readTop_has, htd]
  unfold transformH transform
  refine Sim.read ?_
  rw [hvh, htd]
  by_cases hh : top.has ("hlm" ++ tag) = true
  · rw [if_pos hh, if_pos hh]
    refine Sim.weaken (S := ∅) (R := FreshTop h.length) ?_ (by simp) (fun _ _ _ _ _ _ hr => hr)
    refine Sim.bind (rotatedH_sim lib root tag w) ?_
    rintro h1 r m _ w1 k1 ⟨hr, hle, hlt⟩
    have hv : readV h1 root = readV h root := readV_keep k1 (NoArr.empty _) w (lt_of_getElem? htop) (by simp) (by simp)
    rw [← hv]
    exact finish_sim (n := h.length) (root := root) (key := "hlm" ++ tag) w1 hr hle hlt (fun d => Dict.del d ("omegalm" ++ tag))
      (fun d p hp => mem_del hp) (fun h d => readTop_del h d _) k1.1
  · rw [if_neg hh, if_neg hh]
    refine Sim.read (Sim.liftBind w ?_)
    intro b hb
    rw [← ok_bind b (fun b => (do
      let v := Dict.update (readV h root) b
      let r ← rotatedModes lib v tag
      let v := Dict.set v ("hlm" ++ tag) (.modesC r)
      pure (Dict.del (Dict.del (Dict.del v ("amplm" ++ tag)) ("phaselm" ++ tag)) ("omegalm" ++ tag)) : Py (DataV K C)))]
    refine Sim.bindFresh (S := ∅) (allocTop_sim b h w) (by simp) ?_
    rintro h1 new b' hb' w1 k1 hnew
    cases hb'
    have htop1 : h1[root]? = some (.top top) := by rw [k1.2 root (lt_of_getElem? htop) (by simp), htop]
    refine ⟨{i | i = root ∧ top.has ("hlm" ++ tag) = false}, fun i _ hi => hi, ?_⟩
    -- the write to the caller's dictionary
    have hset : (h1.set root (.top (top.update new)))[root]? = some (.top (top.update new)) := by
      rw [List.getElem?_set_self (lt_of_getElem? htop1)]
    have hwf : WF (h1.set root (.top (top.update new))) := by
      refine wf_set w1 (noArr_top htop1) ?_
      intro p hp
      rcases mem_update hp with h | h
      · exact w1 _ _ htop1 p h
      · exact hnew.lt p h
    have hval : readV (h1.set root (.top (top.update new))) root = Dict.update (readV h root) b := by
      unfold readV
      have : topDict (h1.set root (.top (top.update new))) root = top.update new := by unfold topDict; rw [hset]
      rw [this, readTop_setTop w1 htop1, readTop_update, hnew.val, htd,
        readTop_keep k1 (NoArr.empty _) w (w _ _ htop) (by simp)]
      intro p hp
      rcases mem_update hp with h | h
      · exact w1 _ _ htop1 p h
      · exact hnew.lt p h
    have hkset := keep_set h1 root (.top (top.update new))
    have main : Sim ∅ (do
        let r ← rotatedH lib root tag
        let d ← deepcopy root
        let d := d.set ("hlm" ++ tag) r
        alloc (.top (Dict.del (Dict.del (Dict.del d ("amplm" ++ tag)) ("phaselm" ++ tag)) ("omegalm" ++ tag))) : HM K C Ref)
        (do
        let r ← rotatedModes lib (Dict.update (readV h root) b) tag
        pure (Dict.del (Dict.del (Dict.del ((Dict.update (readV h root) b).set ("hlm" ++ tag) (.modesC r)) ("amplm" ++ tag))
          ("phaselm" ++ tag)) ("omegalm" ++ tag)))
        (FreshTop h.length) (h1.set root (.top (top.update new))) := by
      rw [← hval]
      refine Sim.bind (rotatedH_sim lib root tag hwf) ?_
      rintro h2 r m _ w2 k2 ⟨hr, hle, hlt⟩
      have hv : readV h2 root = readV (h1.set root (.top (top.update new))) root :=
        readV_keep k2 (NoArr.empty _) hwf (lt_of_getElem? hset) (by simp) (by simp)
      rw [← hv]
      have hl : h.length ≤ (h1.set root (.top (top.update new))).length := k1.1.trans hkset.1
      exact finish_sim (n := h.length) (root := root) (key := "hlm" ++ tag) w2 hr (hl.trans hle) hlt
        (fun d => Dict.del (Dict.del (Dict.del d ("amplm" ++ tag)) ("phaselm" ++ tag)) ("omegalm" ++ tag))
        (fun d p hp => mem_del (mem_del (mem_del hp))) (fun h d => by simp only [readTop_del]) (hl.trans k2.1)
    obtain ⟨h', w', k', hm⟩ := main
    refine ⟨h', w', ?_, hm⟩
    have hf : top.has ("hlm" ++ tag) = false := by simpa using hh
    exact (hkset.mono (by simp [hf])).trans (k'.mono (by simp))

/-- The object used after the frame transformation is new and has no frequencies. -/
theorem toCoprecessingH_sim (lib : WaveLib K C) (root : ℕ) {h : Heap K C} (w : WF h)
    (hcell : ∃ d, h[root]? = some (.top d)) :
    Sim {i | i = root ∧ (topDict h root).has "hlm" = false} (toCoprecessingH lib root)
      (toCoprecessing lib (readV h root)) (FreshTop h.length) h := by
  unfold toCoprecessingH toCoprecessing
  refine Sim.bindFresh (transformH_sim lib root "" w hcell) (fun i _ hi => hi) ?_
  intro h1 r v _ w1 k1 hr
  have hvh : ∀ key, (topDict h1 r).has key = v.has key := by
    intro key; rw [← hr.val]; unfold readV; rw [readTop_has]
  refine ⟨{i | i = r}, ?_, ?_⟩
  · rintro i hi rfl
    exact absurd hr.le (by omega)
  · refine Sim.read ?_
    rw [hvh "hlm_zeroecc", hvh "amplm_zeroecc"]
    by_cases hc : (v.has "hlm_zeroecc" || v.has "amplm_zeroecc") = true
    · rw [if_pos hc, if_pos hc]
      have := transformH_sim lib r "_zeroecc" w1 hr.cell
      rw [hr.val] at this
      refine this.weaken (fun i _ hi => hi.1) ?_
      intro h2 r2 v2 _ w2 k2 hr2
      exact ⟨hr2.cell, hr2.val, k1.1.trans hr2.le, fun p hp => k1.1.trans (hr2.entries p hp)⟩
    · rw [if_neg hc, if_neg hc]
      exact Sim.pure w1 hr

theorem toCoprecessing_noOmega {lib : WaveLib K C} {v v' : DataV K C} (h : toCoprecessing lib v = .ok v') :
    v'.get? "omegalm" = none := by
  unfold toCoprecessing at h
  obtain ⟨v1, h1, h⟩ := bind_ok h
  have e1 : v1.get? "omegalm" = none := by
    obtain ⟨r, ⟨_, _, hg⟩ | ⟨_, b, _, _, hg⟩⟩ := transform_ok h1
    · rw [hg, if_pos (by rfl)]
    · rw [hg, if_pos (by rfl)]
  split at h
  · unfold transform at h
    split at h
    · obtain ⟨r, _, h⟩ := bind_ok h
      cases h
      rw [Dict.get?_del, if_neg (by decide), Dict.get?_set, if_neg (by decide), e1]
    · obtain ⟨b, hb, h⟩ := bind_ok h
      obtain ⟨r, _, h⟩ := bind_ok h
      cases h
      rw [Dict.get?_del, if_neg (by decide), Dict.get?_del, if_neg (by decide), Dict.get?_del, if_neg (by decide),
        Dict.get?_set, if_neg (by decide), Dict.get?_update, e1, Option.or_none]
      unfold builtModes at hb
      obtain ⟨a, _, hb⟩ := bind_ok hb
      obtain ⟨p, _, hb⟩ := bind_ok hb
      unfold hlmFromAmpPhase at hb
      obtain ⟨_, _, hb⟩ := bind_ok hb
      obtain ⟨_, _, hb⟩ := bind_ok hb
      obtain ⟨_, _, hb⟩ := bind_ok hb
      split at hb
      · obtain ⟨_, _, hb⟩ := bind_ok hb
        obtain ⟨_, _, hb⟩ := bind_ok hb
        obtain ⟨_, _, hb⟩ := bind_ok hb
        cases hb
        rfl
      · cases hb
        rfl
  · cases h; exact e1

/-- What `analyse` needs to have found. -/
theorem analyse_entries [FloorRing K] {lib : WaveLib K C} {pr : Bool} {nd : DataV K C} {n : Option K} {r : Analysis K}
    (h : analyse lib pr nd n = .ok r) :
    ∃ t a p w, nd.get? "t" = some (.arr t) ∧ nd.get? "amplm" = some (.modesR a) ∧ nd.get? "phaselm" = some (.modesR p) ∧
      nd.get? "omegalm" = some (.modesR w) := by
  unfold analyse at h
  obtain ⟨t, ht, h⟩ := bind_ok h
  obtain ⟨a, ha, h⟩ := bind_ok h
  obtain ⟨total, htot, h⟩ := bind_ok h
  obtain ⟨⟨_, _⟩, hpk, h⟩ := bind_ok h
  obtain ⟨_, _, h⟩ := bind_ok h
  obtain ⟨⟨_, _, _⟩, hg, h⟩ := bind_ok h
  clear h
  refine ⟨t, a, ?_⟩
  unfold gwQuantities at hg
  obtain ⟨a', ha', hg⟩ := bind_ok hg
  obtain ⟨p, hp, hg⟩ := bind_ok hg
  have hw : ∃ w, getR nd ("omegalm" ++ "") = .ok w := by
    split at hg
    · obtain ⟨_, _, hg⟩ := bind_ok hg
      obtain ⟨_, _, hg⟩ := bind_ok hg
      obtain ⟨w, hw, hg⟩ := bind_ok hg
      exact ⟨w, hw⟩
    split at hg
    · cases hg
    split at hg
    · cases hg
    obtain ⟨_, _, hg⟩ := bind_ok hg
    obtain ⟨_, _, hg⟩ := bind_ok hg
    obtain ⟨_, _, hg⟩ := bind_ok hg
    obtain ⟨_, _, hg⟩ := bind_ok hg
    obtain ⟨_, _, hg⟩ := bind_ok hg
    obtain ⟨_, _, hg⟩ := bind_ok hg
    obtain ⟨w, hw, hg⟩ := bind_ok hg
    exact ⟨w, hw⟩
  obtain ⟨w, hw⟩ := hw
  exact ⟨p, w, getArr_ok ht, getR_ok ha, getR_ok hp, getR_ok hw⟩

theorem processDataH_sim [FloorRing K] (lib : WaveLib K C) (precessing : Flag) (frame : String) (numOrbits : Option K)
    (root : ℕ) {h : Heap K C} (w : WF h) (hcell : ∃ d, h[root]? = some (.top d))
    (hown : mustTransform precessing frame = false → numOrbits ≠ none → OwnOmega h root) :
    Sim (Written precessing frame numOrbits root h) (processDataH lib precessing frame numOrbits root)
      (processData lib precessing frame (readV h root) numOrbits)
      (fun h' x y => HasTop 0 h' x.1 y.1 ∧ x.2 = y.2 ∧ ∃ rt : ℕ, x.1.get? "t" = some rt ∧ IsArr h' rt ∧
        (mustTransform precessing frame = false → numOrbits = none → (topDict h root).get? "t" = some rt)) h := by
  unfold processDataH processData
  refine Sim.read (Sim.liftBind w fun _ _ => ?_)
  -- the frame
  have hframe : Sim {i | mustTransform precessing frame = true ∧ (topDict h root).has "hlm" = false ∧ i = root}
      (if mustTransform precessing frame then toCoprecessingH lib root else pure root : HM K C Ref)
      (if mustTransform precessing frame then toCoprecessing lib (readV h root) else pure (readV h root))
      (fun h' (r : ℕ) v => readV h' r = v ∧ (∃ d, h'[r]? = some (.top d)) ∧
        ((mustTransform precessing frame = false ∧ r = root ∧ h' = h) ∨
          (mustTransform precessing frame = true ∧ v.get? "omegalm" = none ∧ ∀ p ∈ topDict h' r, h.length ≤ p.2))) h := by
    cases hm : mustTransform precessing frame with
    | false => exact Sim.pure w ⟨rfl, hcell, .inl ⟨rfl, rfl, rfl⟩⟩
    | true =>
      refine (toCoprecessingH_sim lib root w hcell).weaken (fun i _ hi => ⟨rfl, hi.2, hi.1⟩) ?_
      intro h' r v hv _ _ hr
      exact ⟨hr.val, hr.cell, .inr ⟨rfl, toCoprecessing_noOmega hv, hr.entries⟩⟩
  refine Sim.bindFresh hframe (fun i _ hi => .inl hi) ?_
  rintro h1 r1 v1 _ w1 k1 ⟨hv1, ⟨d1, hd1⟩, hcase⟩
  refine ⟨{i | numOrbits ≠ none ∧ mustTransform precessing frame = false ∧ (topDict h root).get? "omegalm" = some i}, ?_, ?_⟩
  · rintro i _ ⟨ha, hb, hc⟩
    exact .inr ⟨hb, ha, hc⟩
  rw [← hv1] at hcase ⊢
  refine Sim.bindFresh (S := ∅) (newDataH_sim lib w1 (lt_of_getElem? hd1)) (by simp) ?_
  rintro h2 d nd _ w2 k2 ⟨hd, href⟩
  have hlt1 : ∀ k, ∀ r : ℕ, (topDict h1 r1).get? k = some r → r < h1.length := fun k r hr => topDict_lt w1 r1 _ (mem_of_get? hr)
  have hmono1 : ∀ {S : Set ℕ}, (∀ i, i ∈ S → h1.length ≤ i ∨ (numOrbits ≠ none ∧ mustTransform precessing frame = false ∧
      (topDict h root).get? "omegalm" = some i)) → ∀ i < h1.length, i ∈ S → i ∈ {i | numOrbits ≠ none ∧
        mustTransform precessing frame = false ∧ (topDict h root).get? "omegalm" = some i} := by
    intro S hS i hi hiS
    rcases hS i hiS with h | h
    · omega
    · exact h
  obtain ⟨ra, hra, la, sa⟩ := href.amp
  obtain ⟨rp, hrp, lp, sp⟩ := href.phase
  obtain ⟨ro, hro, ho⟩ := href.omega
  refine ⟨{i | h1.length ≤ i ∨ (numOrbits ≠ none ∧ mustTransform precessing frame = false ∧
      (topDict h root).get? "omegalm" = some i)}, hmono1 (fun i hi => hi), ?_⟩
  refine Sim.read ?_
  rw [hd.val]
  refine Sim.liftBind w2 ?_
  intro an han
  obtain ⟨t, a, p, o, gt, ga, gp, go⟩ := analyse_entries han
  have read : ∀ {key : String} {r : ℕ} {e : Entry K C}, d.get? key = some r → nd.get? key = some e → readEntry h2 r = e := by
    intro key r e hk hv
    rw [← hd.val, readTop_get?, hk] at hv
    simpa using hv
  obtain ⟨rt, hrt⟩ : ∃ rt : ℕ, d.get? "t" = some rt := by
    rw [← hd.val, readTop_get?] at gt
    cases hg : d.get? "t" with
    | none => rw [hg] at gt; cases gt
    | some r => exact ⟨r, rfl⟩
  have hrtop : mustTransform precessing frame = false → (topDict h root).get? "t" = some rt := by
    intro hm
    rcases hcase with ⟨_, rfl, rfl⟩ | ⟨hm', _⟩
    · rw [← href.t, hrt]
    · rw [hm] at hm'; cases hm'
  cases hcut : an.cut with
  | none =>
    refine Sim.pure w2 ⟨⟨hd.val, hd.lt, hd.le⟩, rfl, rt, hrt, (arr_cell (read hrt gt)).1, fun hm _ => hrtop hm⟩
  | some idx =>
    have hnum : numOrbits ≠ none := by
      rintro rfl
      obtain ⟨_, _, _, _, _, _, _, _, _, _, _, _, _, _, _, _, _, _, _, _, _, _, _, _, h⟩ := (analyse_spec han).parts
      rcases h with ⟨_, h⟩ | ⟨_, _, h, _⟩
      · rw [hcut] at h; cases h
      · cases h
    have so : ∀ k, d.get? k = some ro → k = "omegalm" := by
      rcases ho with ⟨htop, hs⟩ | ⟨_, _, hs⟩
      · rcases hcase with ⟨hm, rfl, rfl⟩ | ⟨_, hno, _⟩
        · intro k hk
          rcases hs k hk with h | h
          · exact h
          · exact hown hm hnum _ htop _ h
        · unfold readV at hno
          rw [readTop_get?, htop] at hno; cases hno
      · exact hs
    obtain ⟨h3, d3, v3, e3, ev3, w3, k3, ht3, s, hs3, _, hcell3⟩ := cutDataH_ok idx w2 href.nodup hd.lt hra hrp hro hrt sa sp so
      (read hra ga) (read hrp gp) (read hro go) (read hrt gt)
    rw [hd.val] at ev3
    refine ⟨h3, w3, k3.mono ?_, ?_⟩
    · intro i _ hi
      simp only [Set.mem_insert_iff, Set.mem_singleton_iff] at hi
      rcases hi with rfl | rfl | rfl
      · exact .inl la
      · exact .inl lp
      · rcases ho with ⟨htop, _⟩ | ⟨_, hle, _⟩
        · rcases hcase with ⟨hm, rfl, rfl⟩ | ⟨_, hno, _⟩
          · exact .inr ⟨hnum, hm, htop⟩
          · unfold readV at hno
            rw [readTop_get?, htop] at hno; cases hno
        · exact .inl hle
    · simp only [ev3]
      refine ⟨(d3, an), ?_, ht3, rfl, s, hs3, ?_, fun _ hn => absurd hn hnum⟩
      · rw [HM.bind_ok e3]; rfl
      · rcases hcell3 with ⟨l, _, h⟩ | ⟨b, s0, n, _, h⟩
        · exact .inr ⟨_, _, _, h⟩
        · exact .inr ⟨_, _, _, h⟩

end GwEcc
