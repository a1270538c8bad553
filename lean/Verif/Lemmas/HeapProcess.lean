import Verif.Lemmas.HeapData

/-!
# `process_data_dict` on objects: the new dictionary, cutting, and the frame transformation
-/

set_option linter.unusedSectionVars false

namespace GwEcc

open Spec

variable {K C : Type} [Field K] [LinearOrder K]

/-- The objects of the new dictionary: times are the caller's, amplitudes and phases are new and held under one key only, and
frequencies are new or the caller's. -/
structure NewRefs (n : ℕ) (top d : Dict String Ref) : Prop where
  nodup : d.keys.Nodup
  t : d.get? "t" = top.get? "t"
  amp : ∃ r : ℕ, d.get? "amplm" = some r ∧ n ≤ r ∧ ∀ k, d.get? k = some r → k = "amplm"
  phase : ∃ r : ℕ, d.get? "phaselm" = some r ∧ n ≤ r ∧ ∀ k, d.get? k = some r → k = "phaselm"
  omega : ∃ r : ℕ, d.get? "omegalm" = some r ∧
    ((top.get? "omegalm" = some r ∧ ∀ k, d.get? k = some r → k = "omegalm" ∨ top.get? k = some r) ∨
      (top.get? "omegalm" = none ∧ n ≤ r ∧ ∀ k, d.get? k = some r → k = "omegalm"))

theorem newRefs_of {n len : ℕ} {top apo nd : Dict String Ref} (hlt : ∀ k, ∀ r : ℕ, top.get? k = some r → r < n) (ha : Apo n top len apo)
    (hnd : nd.keys.Nodup)
    (hg : ∀ k, nd.get? k = if k = "t" then top.get? "t" else if k = "t_zeroecc" then top.get? "t_zeroecc" else none) :
    NewRefs n top (nd.update apo) := by
  obtain ⟨⟨ra, rp, rw', az, pz, wz, hget, hra, haz, hap, hpz, hpl, hw, hwz⟩, hn⟩ := ha
  have hd : ∀ k, (Dict.update nd apo).get? k = if k = "amplm" then some ra else if k = "phaselm" then some rp else
      if k = "omegalm" then some rw' else if k = "amplm_zeroecc" then az else if k = "phaselm_zeroecc" then pz else
      if k = "omegalm_zeroecc" then wz else if k = "t" then top.get? "t" else if k = "t_zeroecc" then top.get? "t_zeroecc"
      else none := by
    intro k
    rw [Dict.get?_update, Dict.update_nil _ hn, hget, hg]
    by_cases h1 : k = "amplm"; · subst h1; simp
    by_cases h2 : k = "phaselm"; · subst h2; simp
    by_cases h3 : k = "omegalm"; · subst h3; simp
    by_cases h4 : k = "amplm_zeroecc"; · subst h4; simp
    by_cases h5 : k = "phaselm_zeroecc"; · subst h5; simp
    by_cases h6 : k = "omegalm_zeroecc"; · subst h6; simp
    simp [h1, h2, h3, h4, h5, h6]
  refine ⟨nodup_update hnd, by rw [hd]; simp, ⟨ra, by rw [hd]; simp, hra, ?_⟩, ⟨rp, by rw [hd]; simp, by omega, ?_⟩,
    ⟨rw', by rw [hd]; simp, ?_⟩⟩
  · intro k hk
    rw [hd] at hk
    split_ifs at hk with h1 h2 h3 h4 h5 h6 h7 h8
    · exact h1
    · simp only [Option.some.injEq] at hk; omega
    · simp only [Option.some.injEq] at hk
      rcases hw with h | ⟨_, h, _⟩
      · have := hlt _ _ h; omega
      · omega
    · have := haz _ hk; omega
    · have := hpz _ hk; omega
    · rcases hwz _ hk with h | ⟨h, _⟩
      · have := hlt _ _ h; omega
      · omega
    · have := hlt _ _ hk; omega
    · have := hlt _ _ hk; omega
  · intro k hk
    rw [hd] at hk
    split_ifs at hk with h1 h2 h3 h4 h5 h6 h7 h8
    · simp only [Option.some.injEq] at hk; omega
    · exact h2
    · simp only [Option.some.injEq] at hk
      rcases hw with h | ⟨_, h, _⟩
      · have := hlt _ _ h; omega
      · omega
    · have := haz _ hk; omega
    · have := hpz _ hk; omega
    · rcases hwz _ hk with h | ⟨h, _⟩
      · have := hlt _ _ h; omega
      · omega
    · have := hlt _ _ hk; omega
    · have := hlt _ _ hk; omega
  · rcases hw with h | ⟨h, hrw, hrwl, hq⟩
    · refine .inl ⟨h, ?_⟩
      have hlt' := hlt _ _ h
      intro k hk
      rw [hd] at hk
      split_ifs at hk with h1 h2 h3 h4 h5 h6 h7 h8
      · simp only [Option.some.injEq] at hk; omega
      · simp only [Option.some.injEq] at hk; omega
      · exact .inl h3
      · have := haz _ hk; omega
      · have := hpz _ hk; omega
      · rcases hwz _ hk with h' | ⟨h', _⟩
        · subst h6; exact .inr h'
        · omega
      · subst h7; exact .inr hk
      · subst h8; exact .inr hk
    · refine .inr ⟨h, by omega, ?_⟩
      intro k hk
      rw [hd] at hk
      split_ifs at hk with h1 h2 h3 h4 h5 h6 h7 h8
      · simp only [Option.some.injEq] at hk; omega
      · simp only [Option.some.injEq] at hk; omega
      · exact h3
      · have := haz _ hk; omega
      · have := hq _ hk; omega
      · rcases hwz _ hk with h' | ⟨_, _, _, h'⟩
        · have := hlt _ _ h'; omega
        · rcases h' with h' | h'
          · rw [h] at h'; cases h'
          · omega
      · have := hlt _ _ hk; omega
      · have := hlt _ _ hk; omega

theorem newDataH_sim (lib : WaveLib K C) {root : Ref} {h : Heap K C} (w : WF h) (hroot : root < h.length) :
    Sim ∅ (newDataH lib root) (newData lib (readV h root))
      (fun h' d v => HasTop 0 h' d v ∧ NewRefs h.length (topDict h root) d) h := by
  unfold newDataH newData
  refine Sim.read ?_
  have hvh : ∀ key, (readV h root).has key = (topDict h root).has key := fun key => by unfold readV; rw [readTop_has]
  have hvi : ∀ key r, (topDict h root).get? key = some r → (readV h root).getItem key = .ok (readEntry h r) := by
    intro key r hr
    unfold readV; rw [readTop_getItem, getItem_of hr]; rfl
  have hlt : ∀ k, ∀ r : ℕ, (topDict h root).get? k = some r → r < h.length := fun k r hr => topDict_lt w root _ (mem_of_get? hr)
  simp only [hvh]
  by_cases ht : (topDict h root).has "t" = true
  · rw [if_pos ht, if_pos ht]
    obtain ⟨rt, hrt⟩ := (Dict.has_iff_get? _ _).1 ht
    have e1 : (topDict h root).getItem "t" = .ok rt := getItem_of hrt
    rw [e1, hvi _ _ hrt]
    -- after the times
    have fin : ∀ (nd : Dict String Ref), nd.keys.Nodup →
        (∀ k, nd.get? k = if k = "t" then (topDict h root).get? "t" else if k = "t_zeroecc" then
          (topDict h root).get? "t_zeroecc" else none) → (∀ p ∈ nd, p.2 < h.length) →
        Sim ∅ (do let apo ← ampPhaseOmegaH lib root; pure (nd.update apo) : HM K C _)
          (do let apo ← ampPhaseOmega lib (readV h root); pure (Dict.update (readTop h nd) apo))
          (fun h' d v => HasTop 0 h' d v ∧ NewRefs h.length (topDict h root) d) h := by
      intro nd hnd hg hndlt
      refine Sim.bind (ampPhaseOmegaH_sim lib w hroot) ?_
      rintro h1 apo v _ w1 k1 ⟨hv, ha⟩
      have hnd1 : HasTop 0 h1 nd (readTop h nd) := HasTop.keep' ⟨rfl, hndlt, fun _ _ => Nat.zero_le _⟩ k1 w
      refine Sim.pure w1 ⟨⟨by rw [readTop_update, hnd1.val, hv.val], ?_, fun _ _ => Nat.zero_le _⟩, newRefs_of hlt ha hnd hg⟩
      intro p hp
      rcases mem_update hp with hm | hm
      · exact hnd1.lt p hm
      · exact hv.lt p hm
    by_cases hz : (topDict h root).has "t_zeroecc" = true
    · obtain ⟨r0, hr0⟩ := (Dict.has_iff_get? _ _).1 hz
      have e2 : (topDict h root).getItem "t_zeroecc" = .ok r0 := getItem_of hr0
      simp only [if_pos hz, e2, hvi _ _ hr0]
      have := fin [("t", rt), ("t_zeroecc", r0)] (by simp [Dict.keys]) ?_ ?_
      · exact this
      · intro k
        rw [hrt, hr0, Dict.get?_cons, Dict.get?_cons]; rfl
      · intro p hp
        simp only [List.mem_cons, List.not_mem_nil, or_false] at hp
        rcases hp with rfl | rfl
        · exact hlt _ _ hrt
        · exact hlt _ _ hr0
    · simp only [if_neg hz]
      have := fin [("t", rt)] (by simp [Dict.keys]) ?_ ?_
      · exact this
      · intro k
        rw [hrt, Dict.get?_cons]
        rw [Bool.not_eq_true, has_false_iff] at hz
        rw [hz, ite_self]; rfl
      · intro p hp
        simp only [List.mem_cons, List.not_mem_nil, or_false] at hp
        subst hp
        exact hlt _ _ hrt
  · rw [if_neg ht, if_neg ht]
    exact Sim.error w

/-! ### Cutting -/

theorem sliceTo_sim (idx : ℕ) {h : Heap K C} (w : WF h) {r : ℕ} (hr : IsArr h r) :
    ∃ c, sliceTo idx r h = (.ok h.length, h ++ [c]) ∧ WF (h ++ [c]) ∧ IsArr (h ++ [c]) h.length ∧
      readR (h ++ [c]) h.length = (readR h r).take idx := by
  rcases hr with ⟨l, hl⟩ | ⟨b, s, m, hl⟩
  · refine ⟨.view r 0 (min idx l.length), ?_, ?_, .inr ⟨r, 0, _, getElem?_snoc _ _⟩, ?_⟩
    · unfold sliceTo; rw [hl]; rfl
    · exact w.append (c := .view r 0 (min idx l.length)) ⟨l, by rw [List.getElem?_append_left (lt_of_getElem? hl), hl]⟩
    · unfold readR
      rw [getElem?_snoc, hl]
      simp only
      rw [List.getElem?_append_left (lt_of_getElem? hl), hl]
      simp only [List.drop_zero]
      rw [List.take_eq_take_iff]; omega
  · obtain ⟨l, hb⟩ := w _ _ hl
    refine ⟨.view b s (min idx m), ?_, ?_, .inr ⟨b, s, _, getElem?_snoc _ _⟩, ?_⟩
    · unfold sliceTo; rw [hl]; rfl
    · exact w.append (c := .view b s (min idx m)) ⟨l, by rw [List.getElem?_append_left (lt_of_getElem? hb), hb]⟩
    · unfold readR
      rw [getElem?_snoc, hl]
      simp only
      rw [List.getElem?_append_left (lt_of_getElem? hb), hb]
      simp only
      rw [List.take_take]

theorem slices_sim (idx : ℕ) (m : Dict LM Ref) {h : Heap K C} (w : WF h) (hm : ∀ p ∈ m, IsArr h p.2) :
    Sim ∅ (m.mapM fun p => do
        let s ← sliceTo idx p.2
        pure (p.1, s) : HM K C (Dict LM Ref)) (.ok m)
      (fun h' m' _ => HasR h' m' ((readModesR h m).map fun p => (p.1, p.2.take idx))) h := by
  have := Sim.mapM (K := K) (C := C) (f := fun p : LM × Ref => (do
      let s ← sliceTo idx p.2
      pure (p.1, s) : HM K C (LM × Ref))) (I := fun h' p => IsArr h' p.2 ∧ IsArr h p.2 ∧ readR h' p.2 = readR h p.2)
      (P := fun h' b a => b.1 = a.1 ∧ IsArr h' b.2 ∧ readR h' b.2 = (readR h a.2).take idx) ?_ ?_ ?_ m h w
      (fun a ha => ⟨hm a ha, hm a ha, rfl⟩)
  · refine this.weaken (fun _ _ h => h) ?_
    intro h' d m' he _ _ hf
    simp only [Except.ok.injEq] at he
    subst he
    clear this w hm
    constructor
    · unfold readModesR
      induction hf with
      | nil => rfl
      | cons hb _ ih =>
        simp only [List.map_cons] at ih ⊢
        rw [ih, hb.2.2, hb.1]
    · intro p hp
      induction hf with
      | nil => cases hp
      | cons hb _ ih =>
        rcases List.mem_cons.1 hp with e | e
        · subst e; exact hb.2.1
        · exact ih e
  · rintro h1 a w1 ⟨ha1, ha, hread⟩
    obtain ⟨c, e, wc, ic, rc⟩ := sliceTo_sim idx w1 ha1
    refine ⟨h1 ++ [c], wc, Keep.append _ _, (a.1, h1.length), ?_, rfl, ic, by rw [rc, hread]⟩
    rw [HM.bind_ok e]; rfl
  · rintro h1 h2 a w1 k ⟨ha1, ha, hread⟩
    exact ⟨ha1.keep k (NoArr.empty _), ha, (readR_keep k (NoArr.empty _) w1 ha1).trans hread⟩
  · rintro h1 h2 b a w1 k ⟨e, hb, hread⟩
    exact ⟨e, hb.keep k (NoArr.empty _), (readR_keep k (NoArr.empty _) w1 hb).trans hread⟩

theorem noArr_singleton {h : Heap K C} {r : ℕ} {m : Dict LM Ref} (hr : h[r]? = some (.modesR m)) : NoArr {r} h := by
  intro i hi c hc
  simp only [Set.mem_singleton_iff] at hi
  subst hi
  rw [hr] at hc; cases hc
  exact ⟨fun _ => by simp, fun _ _ _ => by simp, fun _ => by simp⟩

theorem keep_set (h : Heap K C) (r : ℕ) (c : Cell K C) : Keep {r} h (h.set r c) := by
  refine ⟨by simp, fun i _ hS => ?_⟩
  rw [List.getElem?_set_ne]
  intro e; exact hS (by simp [e])

theorem wf_set {h : Heap K C} (w : WF h) {r : ℕ} (n : NoArr {r} h) {c : Cell K C} (hc : c.Ok h) : WF (h.set r c) := by
  have k := keep_set h r c
  intro i c' hi
  by_cases e : i = r
  · subst e
    by_cases hl : i < h.length
    · rw [List.getElem?_set_self hl] at hi
      cases hi
      exact hc.keep k n
    · rw [List.getElem?_eq_none (by simp; omega)] at hi; cases hi
  · rw [List.getElem?_set_ne (fun h => e h.symm)] at hi
    exact (w i c' hi).keep k n

theorem readTop_cut {h h' : Heap K C} {d : Dict String Ref} {key : String} {r : ℕ} {e : Entry K C} (hn : d.keys.Nodup)
    (hk : d.get? key = some r) (hsep : ∀ k, d.get? k = some r → k = key) (hr : readEntry h' r = e)
    (hother : ∀ p ∈ d, p.2 ≠ r → readEntry h' p.2 = readEntry h p.2) :
    readTop h' d = (readTop h d).set key e := by
  have gen : ∀ (d : Dict String Ref), d.keys.Nodup → (∀ p ∈ d, p.2 ≠ r → readEntry h' p.2 = readEntry h p.2) →
      (∀ p ∈ d, p.2 = r ↔ p.1 = key) → (key ∈ d.keys) → readTop h' d = (readTop h d).set key e := by
    intro d
    induction d with
    | nil => intro _ _ _ hm; cases hm
    | cons p d ih =>
      intro hn ho hiff hm
      simp only [Dict.keys, List.map_cons, List.nodup_cons] at hn
      unfold readTop
      rw [List.map_cons, List.map_cons]
      by_cases hp : p.1 = key
      · have hpr := (hiff p (by simp)).2 hp
        unfold Dict.set
        rw [if_pos hp.symm, hpr, hr, hp]
        congr 1
        apply List.map_congr_left
        intro q hq
        rw [ho q (by simp [hq])]
        intro hqr
        have := (hiff q (by simp [hq])).1 hqr
        exact hn.1 (List.mem_map.2 ⟨q, hq, by rw [this, hp]⟩)
      · have hpr : p.2 ≠ r := fun h => hp ((hiff p (by simp)).1 h)
        unfold Dict.set
        rw [if_neg (fun h => hp h.symm), ho p (by simp) hpr]
        congr 1
        refine ih hn.2 (fun q hq => ho q (by simp [hq])) (fun q hq => hiff q (by simp [hq])) ?_
        simp only [Dict.keys, List.map_cons, List.mem_cons] at hm
        rcases hm with hm | hm
        · exact absurd hm.symm hp
        · exact hm
  refine gen d hn hother ?_ ?_
  · intro p hp
    have hg := get?_of_mem hn (k := p.1) (v := p.2) hp
    constructor
    · intro e; rw [e] at hg; exact hsep _ hg
    · intro e; rw [e, hk] at hg; cases hg; rfl
  · exact List.mem_map.2 ⟨_, mem_of_get? hk, rfl⟩

/-- Cutting the modes under one key. -/
theorem cutModesH_ok (idx : ℕ) {h : Heap K C} (w : WF h) {d : Dict String Ref} (hn : d.keys.Nodup)
    (hlt : ∀ p ∈ d, p.2 < h.length) {key : String} {r : ℕ} {m : Dict LM Ref} (hk : d.get? key = some r)
    (hr : h[r]? = some (.modesR m)) (hsep : ∀ k, d.get? k = some r → k = key) :
    ∃ h', cutModesH idx d key h = (.ok (), h') ∧ WF h' ∧ Keep {r} h h' ∧ (∃ m', h'[r]? = some (.modesR m')) ∧
      (∀ r' m', r' ≠ r → h[r']? = some (.modesR m') → h'[r']? = some (.modesR m')) ∧
      readTop h' d = (readTop h d).set key (.modesR ((readModesR h m).map fun p => (p.1, p.2.take idx))) := by
  obtain ⟨h1, w1, k1, m', e1, hm'⟩ := slices_sim idx m w (w _ _ hr)
  have hrl := lt_of_getElem? hr
  have hr1 : h1[r]? = some (.modesR m) := by rw [k1.2 r hrl (by simp), hr]
  have n1 := noArr_singleton hr1
  have hset : (h1.set r (.modesR m'))[r]? = some (.modesR m') := by
    rw [List.getElem?_set_self (hrl.trans_le k1.1)]
  have ks := keep_set h1 r (.modesR m')
  have k1' : Keep {r} h h1 := k1.mono (by simp)
  refine ⟨h1.set r (.modesR m'), ?_, wf_set w1 n1 hm'.2, k1'.trans ks, ⟨m', hset⟩, ?_, ?_⟩
  · unfold cutModesH
    rw [HM.lift_bind_ok (getItem_of hk)]
    have er : refsR d key h = (.ok m, h) := by
      unfold refsR
      rw [HM.lift_bind_ok (getItem_of hk), HM.read_bind, hr]; rfl
    rw [HM.bind_ok er, HM.bind_ok e1]; rfl
  · intro r' m'' hne hr'
    rw [ks.2 r' ((lt_of_getElem? hr').trans_le k1.1) (by simpa using hne), k1.2 r' (lt_of_getElem? hr') (by simp), hr']
  · refine readTop_cut hn hk hsep ?_ ?_
    · rw [readEntry_modesR hset]
      have := hm'.keep ks n1 w1
      rw [this.1]
    · intro p hp hne
      rw [readEntry_keep ks n1 w1 ((hlt p hp).trans_le k1.1) (by simpa using hne),
        readEntry_keep k1 (NoArr.empty _) w (hlt p hp) (by simp)]

theorem modesR_cell {h : Heap K C} {r : ℕ} {m : Dict LM (List K)} (he : readEntry h r = .modesR m) :
    ∃ d, h[r]? = some (.modesR d) ∧ readModesR h d = m := by
  unfold readEntry at he
  split at he
  all_goals first | cases he | skip
  rename_i d hd
  exact ⟨d, hd, rfl⟩

theorem arr_cell {h : Heap K C} {r : ℕ} {l : List K} (he : readEntry h r = .arr l) : IsArr h r ∧ readR h r = l := by
  unfold readEntry at he
  unfold readR
  split at he
  all_goals first | cases he | skip
  · rename_i l' hd
    exact ⟨.inl ⟨_, hd⟩, by rw [hd]⟩
  · rename_i b s n hd
    exact ⟨.inr ⟨_, _, _, hd⟩, by rw [hd]⟩

/-- Cutting the data: the three mode dictionaries are written in place, the time array is a new slice. -/
theorem cutDataH_ok (idx : ℕ) {h : Heap K C} (w : WF h) {d : Dict String Ref} (hn : d.keys.Nodup)
    (hlt : ∀ p ∈ d, p.2 < h.length) {ra rp rw' rt : ℕ} {a p o : Dict LM (List K)} {t : List K}
    (hra : d.get? "amplm" = some ra) (hrp : d.get? "phaselm" = some rp) (hrw : d.get? "omegalm" = some rw')
    (hrt : d.get? "t" = some rt)
    (sa : ∀ k, d.get? k = some ra → k = "amplm") (sp : ∀ k, d.get? k = some rp → k = "phaselm")
    (sw : ∀ k, d.get? k = some rw' → k = "omegalm")
    (ea : readEntry h ra = .modesR a) (ep : readEntry h rp = .modesR p) (eo : readEntry h rw' = .modesR o)
    (et : readEntry h rt = .arr t) :
    ∃ h' d' v', cutDataH idx d h = (.ok d', h') ∧ cutData idx (readTop h d) = .ok v' ∧ WF h' ∧ Keep {ra, rp, rw'} h h' ∧
      HasTop 0 h' d' v' ∧ ∃ s : ℕ, d'.get? "t" = some s ∧ h.length ≤ s ∧
        ((∃ l, h[rt]? = some (.nums l) ∧ h'[s]? = some (.view rt 0 (min idx l.length))) ∨
          ∃ b s0 n, h[rt]? = some (.view b s0 n) ∧ h'[s]? = some (.view b s0 (min idx n))) := by
  have nap : ra ≠ rp := by rintro rfl; exact absurd (sa _ hrp) (by decide)
  have naw : ra ≠ rw' := by rintro rfl; exact absurd (sa _ hrw) (by decide)
  have npw : rp ≠ rw' := by rintro rfl; exact absurd (sp _ hrw) (by decide)
  obtain ⟨ma, hma, rfl⟩ := modesR_cell ea
  obtain ⟨mp, hmp, rfl⟩ := modesR_cell ep
  obtain ⟨mo, hmo, rfl⟩ := modesR_cell eo
  obtain ⟨h1, e1, w1, k1, _, o1, v1⟩ := cutModesH_ok idx w hn hlt hra hma sa
  have hlt1 : ∀ p ∈ d, p.2 < h1.length := fun p hp => (hlt p hp).trans_le k1.1
  obtain ⟨h2, e2, w2, k2, _, o2, v2⟩ := cutModesH_ok idx w1 hn hlt1 hrp (o1 _ _ nap.symm hmp) sp
  have hlt2 : ∀ p ∈ d, p.2 < h2.length := fun p hp => (hlt1 p hp).trans_le k2.1
  obtain ⟨h3, e3, w3, k3, _, o3, v3⟩ := cutModesH_ok idx w2 hn hlt2 hrw (o2 _ _ npw.symm (o1 _ _ naw.symm hmo)) sw
  have hlt3 : ∀ p ∈ d, p.2 < h3.length := fun p hp => (hlt2 p hp).trans_le k3.1
  have k03 : Keep {ra, rp, rw'} h h3 :=
    ((k1.mono (by simp +contextual)).trans (k2.mono (by simp +contextual))).trans (k3.mono (by simp +contextual))
  have hrp1 : readModesR h1 mp = readModesR h mp := readModesR_keep k1 (noArr_singleton hma) w (w _ _ hmp)
  have hrw1 : readModesR h2 mo = readModesR h mo := by
    rw [readModesR_keep k2 (noArr_singleton (o1 _ _ nap.symm hmp)) w1 (w1 _ _ (o1 _ _ naw.symm hmo)),
      readModesR_keep k1 (noArr_singleton hma) w (w _ _ hmo)]
  have vfin : readTop h3 d = (((readTop h d).set "amplm" (.modesR ((readModesR h ma).map fun p => (p.1, p.2.take idx)))).set
      "phaselm" (.modesR ((readModesR h mp).map fun p => (p.1, p.2.take idx)))).set
      "omegalm" (.modesR ((readModesR h mo).map fun p => (p.1, p.2.take idx))) := by
    rw [v3, v2, v1, hrp1, hrw1]
  obtain ⟨harr, hreadt⟩ := arr_cell et
  have na : rt ≠ ra := by rintro rfl; exact absurd (sa _ hrt) (by decide)
  have np : rt ≠ rp := by rintro rfl; exact absurd (sp _ hrt) (by decide)
  have nw : rt ≠ rw' := by rintro rfl; exact absurd (sw _ hrt) (by decide)
  have hnoarr : NoArr {ra, rp, rw'} h := by
    intro i hi c hc
    simp only [Set.mem_insert_iff, Set.mem_singleton_iff] at hi
    rcases hi with rfl | rfl | rfl
    · exact noArr_singleton hma _ rfl c hc
    · exact noArr_singleton hmp _ rfl c hc
    · exact noArr_singleton hmo _ rfl c hc
  have harr3 := harr.keep k03 hnoarr
  have hread3 : readR h3 rt = t := (readR_keep k03 hnoarr w harr).trans hreadt
  have het3 : readEntry h3 rt = .arr t := by
    rw [readEntry_keep k03 hnoarr w (hlt _ (mem_of_get? hrt)) (by simp [na, np, nw]), et]
  obtain ⟨c, e4, w4, i4, r4⟩ := sliceTo_sim idx w3 harr3
  have hent4 : readEntry (h3 ++ [c]) h3.length = .arr (t.take idx) := by
    rw [← hread3, ← r4]
    rcases i4 with ⟨l, hl⟩ | ⟨b, s, m, hl⟩ <;> (unfold readEntry readR; rw [hl])
  have k34 := Keep.append h3 [c]
  refine ⟨h3 ++ [c], d.set "t" h3.length, (readTop h3 d).set "t" (.arr (t.take idx)), ?_, ?_, w4,
    k03.trans (k34.mono (by simp)), ⟨?_, ?_, fun _ _ => Nat.zero_le _⟩, h3.length, by rw [Dict.get?_set, if_pos rfl],
    k03.1, ?_⟩
  · unfold cutDataH
    have eg : getArr (readTop h3 d) "t" = .ok t := getArr_of (by rw [readTop_get?, hrt, Option.map_some, het3])
    rw [HM.bind_ok e1, HM.bind_ok e2, HM.bind_ok e3, HM.read_bind, HM.lift_bind_ok eg, HM.lift_bind_ok (getItem_of hrt),
      HM.bind_ok e4]; rfl
  · unfold cutData
    have ga : (readTop h d).get? "amplm" = some (.modesR (readModesR h ma)) := by rw [readTop_get?, hra, Option.map_some, ea]
    have gp : (readTop h d).get? "phaselm" = some (.modesR (readModesR h mp)) := by rw [readTop_get?, hrp, Option.map_some, ep]
    have go : (readTop h d).get? "omegalm" = some (.modesR (readModesR h mo)) := by rw [readTop_get?, hrw, Option.map_some, eo]
    have gt : (readTop h3 d).get? "t" = some (.arr t) := by rw [readTop_get?, hrt, Option.map_some, het3]
    rw [vfin] at gt ⊢
    simp only [getItem_of ga, ok_bind, cutEntry]
    rw [getItem_of (x := .modesR (readModesR h mp)) (by rw [Dict.get?_set, if_neg (by decide), gp])]
    simp only [ok_bind, cutEntry]
    rw [getItem_of (x := .modesR (readModesR h mo)) (by rw [Dict.get?_set, if_neg (by decide), Dict.get?_set, if_neg (by decide), go])]
    simp only [ok_bind, cutEntry]
    rw [getArr_of gt]; rfl
  · rw [readTop_set, hent4, readTop_keep k34 (NoArr.empty _) w3 hlt3 (by simp)]
  · intro q hq
    rcases mem_set hq with hm | hm
    · exact (hlt3 q hm).trans_le k34.1
    · subst hm; simp
  · have hcell : h3[rt]? = h[rt]? := k03.2 rt harr.lt (by simp [na, np, nw])
    rcases harr with ⟨l, hl⟩ | ⟨b, s, m, hl⟩
    · left
      refine ⟨l, hl, ?_⟩
      rw [hl] at hcell
      unfold sliceTo at e4
      rw [hcell] at e4
      have : h3 ++ [Cell.view rt 0 (min idx l.length)] = h3 ++ [c] := congrArg Prod.snd e4
      rw [← this, getElem?_snoc]
    · right
      refine ⟨b, s, m, hl, ?_⟩
      rw [hl] at hcell
      unfold sliceTo at e4
      rw [hcell] at e4
      have : h3 ++ [Cell.view b s (min idx m)] = h3 ++ [c] := congrArg Prod.snd e4
      rw [← this, getElem?_snoc]

end GwEcc
