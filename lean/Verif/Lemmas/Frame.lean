import Verif.Lemmas.Process
import Verif.Props.Modes

/-! Lemmas about the transformation to the coprecessing frame. -/

set_option linter.unusedSectionVars false

namespace GwEcc

open Spec

section
variable {K C : Type} [Field K] [LinearOrder K]

/-- A successful rotation: the five `ell = 2` modes go to the library in order and come back in order. -/
theorem rotatedModes_ok {lib : WaveLib K C} {v : DataV K C} {tag : String} {r : Dict LM (List C)}
    (h : rotatedModes lib v tag = .ok r) :
    ∃ H t, v.get? ("hlm" ++ tag) = some (.modesC H) ∧ v.get? ("t" ++ tag) = some (.arr t) ∧ Coprecessing lib t H r := by
  unfold rotatedModes at h
  obtain ⟨H, hH, h⟩ := bind_ok h
  obtain ⟨cols, hpk, h⟩ := bind_ok h
  obtain ⟨t, ht, h⟩ := bind_ok h
  obtain ⟨cols', hrot, hun⟩ := bind_ok h
  refine ⟨H, t, getC_ok hH, getArr_ok ht, ?_⟩
  obtain ⟨h1, h2⟩ := C47_columns lib.zero H 2 le_rfl cols hpk
  have e : ((2 + 3) * (2 - 1) : ℤ).toNat = 5 := by decide
  rw [e] at h1
  obtain ⟨a, ha, ca⟩ := h2 2 (-2) (by omega) (by omega) (by omega) (by omega)
  obtain ⟨b, hb, cb⟩ := h2 2 (-1) (by omega) (by omega) (by omega) (by omega)
  obtain ⟨c, hc, cc⟩ := h2 2 0 (by omega) (by omega) (by omega) (by omega)
  obtain ⟨d, hd, cd⟩ := h2 2 1 (by omega) (by omega) (by omega) (by omega)
  obtain ⟨f, hf, cf⟩ := h2 2 2 (by omega) (by omega) (by omega) (by omega)
  have hcols : cols = [a, b, c, d, f] := by
    match cols, h1 with
    | [a', b', c', d', f'], _ =>
      simp at ca cb cc cd cf
      rw [ca, cb, cc, cd, cf]
  subst hcols
  refine ⟨a, b, c, d, f, cols', ha, hb, hc, hd, hf, hrot, ?_⟩
  have hm : modeLoop 2 2 = [(2, -2), (2, -1), (2, 0), (2, 1), (2, 2)] := by decide
  have hlt : ∀ k ∈ modeLoop 2 2, (scriIndex 2 k).toNat < cols'.length := by
    by_contra hcon
    push Not at hcon
    obtain ⟨k, hk, hle⟩ := hcon
    have : ∀ (l : List LM) (acc : Dict LM (List C)), k ∈ l → ∃ err, l.foldlM (fun acc k => do
        let col ← pyGet cols' (scriIndex 2 k).toNat
        pure (acc.set k col)) acc = (.error err : Py (Dict LM (List C))) := by
      intro l
      induction l with
      | nil => intro acc hm; simp at hm
      | cons x l ih =>
        intro acc hm
        rw [List.foldlM_cons]
        cases hg : pyGet cols' (scriIndex 2 x).toNat with
        | error e => exact ⟨e, rfl⟩
        | ok col =>
          rcases List.mem_cons.mp hm with rfl | hm
          · obtain ⟨hl, _⟩ := pyGet_ok hg; omega
          · exact ih _ hm
    obtain ⟨err, he⟩ := this _ [] hk
    unfold unpackModes at hun
    rw [he] at hun
    cases hun
  obtain ⟨d', h1', h3⟩ := unpack_loop cols' (fun k => (scriIndex 2 k).toNat) (modeLoop 2 2) [] hlt
  have : unpackModes cols' 2 2 = .ok d' := h1'
  rw [this] at hun
  cases hun
  intro k
  rw [h3]
  by_cases hk : k ∈ modeLoop 2 2
  · obtain ⟨⟨q1, q2⟩, q3, q4⟩ := mem_modeLoop.mp hk
    have q5 : k.1 = 2 := le_antisymm q2 q1
    rw [if_pos hk, if_pos ⟨q5, by omega, by omega⟩]
    have : scriIndex 2 k = k.2 + 2 := by unfold scriIndex; rw [q5]; ring
    rw [this]
  · rw [if_neg hk, if_neg]
    · rfl
    · rintro ⟨q1, q2, q3⟩
      exact hk (mem_modeLoop.mpr ⟨⟨by omega, by omega⟩, by omega, by omega⟩)

theorem unpack_nodup {cols : List (List C)} {d : Dict LM (List C)} (h : unpackModes cols 2 2 = .ok d) : d.keys.Nodup := by
  unfold unpackModes at h
  have : ∀ (l : List LM) (acc d : Dict LM (List C)), acc.keys.Nodup → l.foldlM (fun acc k => do
        let col ← pyGet cols (scriIndex 2 k).toNat
        pure (acc.set k col)) acc = (.ok d : Py (Dict LM (List C))) → d.keys.Nodup := by
    intro l
    induction l with
    | nil => intro acc d ha h; cases h; exact ha
    | cons x l ih =>
      intro acc d ha h
      rw [List.foldlM_cons] at h
      obtain ⟨acc', h1, h⟩ := bind_ok h
      obtain ⟨col, _, h1⟩ := bind_ok h1
      cases h1
      exact ih _ _ (Dict.nodup_set _ _ ha) h
  exact this _ _ _ (by simp [Dict.keys]) h

theorem rotatedModes_nodup {lib : WaveLib K C} {v : DataV K C} {tag : String} {r : Dict LM (List C)}
    (h : rotatedModes lib v tag = .ok r) : r.keys.Nodup := by
  unfold rotatedModes at h
  obtain ⟨H, hH, h⟩ := bind_ok h
  obtain ⟨cols, hc, h⟩ := bind_ok h
  obtain ⟨t, ht, h⟩ := bind_ok h
  obtain ⟨cols', hc', h⟩ := bind_ok h
  exact unpack_nodup h

theorem polarModes_loop (lib : WaveLib K C) (ph : Dict LM (List K)) : ∀ (e : Dict LM (List K)) (acc H : Dict LM (List C)),
    e.keys.Nodup → acc.keys.Nodup →
    e.foldlM (fun acc p => do
      let phi ← ph.getItem p.1
      let h ← lib.polar p.2 phi
      pure (acc.set p.1 h)) acc = (.ok H : Py _) →
    H.keys.Nodup ∧ ∀ k, (e.get? k = none ∧ H.get? k = acc.get? k) ∨
      ∃ A φ h, e.get? k = some A ∧ ph.get? k = some φ ∧ lib.polar A φ = .ok h ∧ H.get? k = some h
  | [], acc, H, _, ha, h => by cases h; exact ⟨ha, fun k => Or.inl ⟨rfl, rfl⟩⟩
  | p :: e, acc, H, hn, ha, h => by
    rw [List.foldlM_cons] at h
    obtain ⟨acc', h1, h⟩ := bind_ok h
    obtain ⟨φ, hφ, h1⟩ := bind_ok h1
    obtain ⟨hh, hhh, h1⟩ := bind_ok h1
    cases h1
    simp only [Dict.keys, List.map_cons, List.nodup_cons] at hn
    obtain ⟨g1, g2⟩ := polarModes_loop lib ph e _ H hn.2 (Dict.nodup_set _ _ ha) h
    refine ⟨g1, fun k => ?_⟩
    rw [Dict.get?_cons]
    rcases g2 k with ⟨h3, h4⟩ | ⟨A, φ', h', h3, h4, h5, h6⟩
    · rw [Dict.get?_set] at h4
      by_cases hk : k = p.1
      · rw [if_pos hk] at h4 ⊢
        exact Or.inr ⟨p.2, φ, hh, rfl, by rw [hk]; exact getItem_ok hφ, hhh, h4⟩
      · rw [if_neg hk] at h4 ⊢
        exact Or.inl ⟨h3, h4⟩
    · have hk : k ≠ p.1 := by
        rintro rfl
        exact hn.1 ((Dict.has_iff e _).mp ((Dict.has_iff_get? _ _).mpr ⟨A, h3⟩))
      rw [if_neg hk]
      exact Or.inr ⟨A, φ', h', h3, h4, h5, h6⟩

theorem polarModes_spec {lib : WaveLib K C} {amp ph : Dict LM (List K)} {H : Dict LM (List C)} (hn : amp.keys.Nodup)
    (h : polarModes lib amp ph = .ok H) : H.keys.Nodup ∧ Polar lib amp ph H := by
  obtain ⟨h1, h2⟩ := polarModes_loop lib ph amp [] H hn (by simp [Dict.keys]) h
  refine ⟨h1, fun k => ?_⟩
  rcases h2 k with ⟨a, b⟩ | h
  · exact Or.inl ⟨a, b⟩
  · exact Or.inr h

/-- Decomposing and recombining complex modes gives them back. -/
theorem polar_of_complex {lib : WaveLib K C} (law : ∀ h, lib.polar (lib.abs h) (lib.phase h) = .ok h)
    {c H : Dict LM (List C)}
    (h : Polar lib (c.map fun p => (p.1, lib.abs p.2)) (c.map fun p => (p.1, lib.phase p.2)) H) (k : LM) :
    H.get? k = c.get? k := by
  rcases h k with ⟨a, b⟩ | ⟨A, φ, h, h1, h2, h3, h4⟩
  · rw [get?_map] at a
    rw [b]
    cases hc : c.get? k with
    | none => rfl
    | some x => rw [hc] at a; cases a
  · rw [get?_map] at h1 h2
    cases hc : c.get? k with
    | none => rw [hc] at h1; cases h1
    | some x =>
      rw [hc] at h1 h2
      cases h1
      cases h2
      rw [law] at h3
      cases h3
      exact h4


/-- What one transformation leaves under each key. -/
theorem transform_ok {lib : WaveLib K C} {v v' : DataV K C} {tag : String} (h : transform lib v tag = .ok v') :
    ∃ r, (v.has ("hlm" ++ tag) = true ∧ rotatedModes lib v tag = .ok r ∧
        ∀ key, v'.get? key = if key = "omegalm" ++ tag then none
          else if key = "hlm" ++ tag then some (.modesC r) else v.get? key) ∨
      (v.has ("hlm" ++ tag) = false ∧ ∃ b, builtModes lib v = .ok b ∧ rotatedModes lib (v.update b) tag = .ok r ∧
        ∀ key, v'.get? key = if key = "omegalm" ++ tag then none
          else if key = "phaselm" ++ tag then none else if key = "amplm" ++ tag then none
          else if key = "hlm" ++ tag then some (.modesC r) else (v.update b).get? key) := by
  unfold transform at h
  split at h
  · rename_i h1
    obtain ⟨r, hr, h⟩ := bind_ok h
    cases h
    exact ⟨r, Or.inl ⟨h1, hr, fun key => by simp only [Dict.get?_del, Dict.get?_set]⟩⟩
  · rename_i h1
    obtain ⟨b, hb, h⟩ := bind_ok h
    obtain ⟨r, hr, h⟩ := bind_ok h
    cases h
    exact ⟨r, Or.inr ⟨by simpa using h1, b, hb, hr, fun key => by simp only [Dict.get?_del, Dict.get?_set]⟩⟩

theorem withZeroecc_get (name : String) (hname : name = "amplm" ∨ name = "phaselm") (a z : Dict LM (List K)) (key : String) :
    (withZeroecc name a z : DataV K C).get? key = if key = name then some (.modesR a) else
      if key = name ++ "_zeroecc" then (if z.isEmpty then none else some (.modesR z)) else none := by
  unfold withZeroecc
  rw [Dict.get?_cons]
  cases z.isEmpty <;> simp [Dict.get?_cons]

/-- The complex modes built from amplitudes and phases. -/
theorem builtModes_ok {lib : WaveLib K C} {v b : DataV K C} (hp : ProperDicts v) (h : builtModes lib v = .ok b) :
    ∃ a p c z q, realModes lib.abs "amplm" "" v = .ok a ∧ realModes lib.phase "phaselm" "" v = .ok p ∧
      realModes lib.abs "amplm" "_zeroecc" v = .ok z ∧ realModes lib.phase "phaselm" "_zeroecc" v = .ok q ∧
      c.keys.Nodup ∧ Polar lib a p c ∧
      ((z.isEmpty = true ∧ ∀ (w : DataV K C) key, (w.update b).get? key = if key = "hlm" then some (.modesC c) else w.get? key) ∨
        (z.isEmpty = false ∧ ∃ c0, c0.keys.Nodup ∧ Polar lib z q c0 ∧
          ∀ (w : DataV K C) key, (w.update b).get? key = if key = "hlm_zeroecc" then some (.modesC c0) else
            if key = "hlm" then some (.modesC c) else w.get? key)) := by
  unfold builtModes realModesDict at h
  obtain ⟨da, h1, h⟩ := bind_ok h
  obtain ⟨a, ha, h1⟩ := bind_ok h1
  obtain ⟨z, hz, h1⟩ := bind_ok h1
  cases h1
  obtain ⟨dp, h1, h⟩ := bind_ok h
  obtain ⟨p, hph, h1⟩ := bind_ok h1
  obtain ⟨q, hq, h1⟩ := bind_ok h1
  cases h1
  have nodup : ∀ {name suffix d} {conv : List C → List K}, realModes conv name suffix v = .ok d → d.keys.Nodup := by
    intro name suffix d conv hh
    rcases realModes_spec conv hp hh with ⟨_, _, hn⟩ | ⟨_, c, _, hn, rfl⟩ | ⟨_, _, _, rfl⟩
    · exact hn
    · rw [keys_map]; exact hn
    · simp [Dict.keys]
  unfold hlmFromAmpPhase at h
  obtain ⟨a', ha', h⟩ := bind_ok h
  obtain ⟨p', hp', h⟩ := bind_ok h
  obtain ⟨c, hc, hfin⟩ := bind_ok h
  have e1 := getR_ok ha'
  rw [withZeroecc_get _ (Or.inl rfl), if_pos rfl] at e1
  cases e1
  have e2 := getR_ok hp'
  rw [withZeroecc_get _ (Or.inr rfl), if_pos rfl] at e2
  cases e2
  obtain ⟨hcn, hcp⟩ := polarModes_spec (nodup ha) hc
  refine ⟨a, p, c, z, q, ha, hph, hz, hq, hcn, hcp, ?_⟩
  have hhas : (withZeroecc "amplm" a z : DataV K C).has "amplm_zeroecc" = !z.isEmpty := by
    unfold Dict.has
    rw [withZeroecc_get _ (Or.inl rfl), if_neg (by decide), if_pos (by decide)]
    cases z.isEmpty <;> rfl
  rw [hhas] at hfin
  cases hze : z.isEmpty with
  | true =>
    rw [hze] at hfin
    cases hfin
    refine Or.inl ⟨rfl, fun w key => ?_⟩
    unfold Dict.update
    simp only [List.foldl_cons, List.foldl_nil, Dict.get?_set]
  | false =>
    rw [hze] at hfin
    simp only [Bool.not_false, if_true] at hfin
    obtain ⟨a0, ha0, hf1⟩ := bind_ok hfin
    obtain ⟨p0, hp0, hf2⟩ := bind_ok hf1
    obtain ⟨c0, hc0, hf3⟩ := bind_ok hf2
    cases hf3
    have e1 := getR_ok ha0
    rw [withZeroecc_get _ (Or.inl rfl), if_neg (by decide), if_pos (by decide), hze] at e1
    cases e1
    have e2 := getR_ok hp0
    rw [withZeroecc_get _ (Or.inr rfl), if_neg (by decide), if_pos (by decide)] at e2
    have : p0 = q := by
      split at e2
      · cases e2
      · cases e2; rfl
    subst this
    obtain ⟨hcn0, hcp0⟩ := polarModes_spec (nodup hz) hc0
    refine Or.inr ⟨rfl, c0, hcn0, hcp0, fun w key => ?_⟩
    unfold Dict.update
    simp only [List.foldl_cons, List.foldl_nil, Dict.get?_set]

/-- Whatever is transformed, the times stay. -/
theorem transform_t {lib : WaveLib K C} {v v' : DataV K C} (hp : ProperDicts v) {tag : String} (ht : tag = "" ∨ tag = "_zeroecc")
    (h : transform lib v tag = .ok v') : v'.get? "t" = v.get? "t" ∧ v'.get? "t_zeroecc" = v.get? "t_zeroecc" ∧
      (v.get? ("t" ++ tag)).isSome := by
  obtain ⟨r, ⟨h1, h2, h3⟩ | ⟨h1, b, hb, h2, h3⟩⟩ := transform_ok h
  · obtain ⟨H, t, _, h5, _⟩ := rotatedModes_ok h2
    rw [h3, h3, h5]
    rcases ht with rfl | rfl <;> simp
  · obtain ⟨H, t, _, h5, _⟩ := rotatedModes_ok h2
    obtain ⟨a, p, c, z, q, _, _, _, _, _, _, ⟨_, hg⟩ | ⟨_, c0, _, _, hg⟩⟩ := builtModes_ok hp hb
    · rw [hg] at h5
      rw [h3, h3, hg, hg]
      rcases ht with rfl | rfl <;> simp at h5 ⊢ <;> rw [h5] <;> rfl
    · rw [hg] at h5
      rw [h3, h3, hg, hg]
      rcases ht with rfl | rfl <;> simp at h5 ⊢ <;> rw [h5] <;> rfl

theorem _root_.GwEcc.Spec.ProperDicts.of_get {v v' : DataV K C} (hp : ProperDicts v)
    (h : ∀ key e, v'.get? key = some e → v.get? key = some e ∨ ∃ c, e = .modesC c ∧ c.keys.Nodup) : ProperDicts v' := by
  intro key e he
  rcases h key e he with h | ⟨c, rfl, hc⟩
  · exact hp key e h
  · exact ⟨fun d hd => (by cases hd), fun d hd => (by cases hd; exact hc)⟩

theorem transform_proper {lib : WaveLib K C} {v v' : DataV K C} (hp : ProperDicts v) {tag : String}
    (h : transform lib v tag = .ok v') : ProperDicts v' := by
  obtain ⟨r, ⟨h1, h2, h3⟩ | ⟨h1, b, hb, h2, h3⟩⟩ := transform_ok h
  · refine hp.of_get fun key e he => ?_
    rw [h3] at he
    split at he
    · cases he
    split at he
    · cases he; exact Or.inr ⟨r, rfl, rotatedModes_nodup h2⟩
    · exact Or.inl he
  · refine hp.of_get fun key e he => ?_
    rw [h3] at he
    split at he
    · cases he
    split at he
    · cases he
    split at he
    · cases he
    split at he
    · cases he; exact Or.inr ⟨r, rfl, rotatedModes_nodup h2⟩
    · obtain ⟨a, p, c, z, q, _, _, _, _, hc, _, ⟨_, hg⟩ | ⟨_, c0, hc0, _, hg⟩⟩ := builtModes_ok hp hb
      · rw [hg] at he
        split at he
        · cases he; exact Or.inr ⟨c, rfl, hc⟩
        · exact Or.inl he
      · rw [hg] at he
        split at he
        · cases he; exact Or.inr ⟨c0, rfl, hc0⟩
        split at he
        · cases he; exact Or.inr ⟨c, rfl, hc⟩
        · exact Or.inl he

end

end GwEcc
