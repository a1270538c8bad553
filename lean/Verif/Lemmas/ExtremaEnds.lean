import Verif.Lemmas.Extrema

namespace GwEcc

theorem sorted_getLast_ge {l : List ℕ} (hs : l.Pairwise (· < ·)) (hne : l ≠ []) : ∀ x ∈ l, x ≤ l.getLast hne := by
  intro x hx
  obtain ⟨i, hi, rfl⟩ := List.getElem_of_mem hx
  rw [List.getLast_eq_getElem]
  rcases Nat.lt_or_ge i (l.length - 1) with h | h
  · exact (List.pairwise_iff_getElem.mp hs _ _ hi (by omega) h).le
  · have : i = l.length - 1 := by omega
    subst this; exact le_refl _

theorem sorted_head_le {l : List ℕ} (hs : l.Pairwise (· < ·)) (h0 : 0 < l.length) : ∀ x ∈ l, l[0] ≤ x := by
  intro x hx
  obtain ⟨i, hi, rfl⟩ := List.getElem_of_mem hx
  rcases Nat.eq_zero_or_pos i with h | h
  · subst h; exact le_refl _
  · exact (List.pairwise_iff_getElem.mp hs 0 i h0 hi h).le

theorem eq_of_length_le_one {l : List ℕ} (h : ¬ l.length > 1) {u v : ℕ} (hu : u ∈ l) (hv : v ∈ l) : u = v := by
  match l, h, hu, hv with
  | [x], _, hu, hv => simp at hu hv; rw [hu, hv]
  | [], _, hu, _ => simp at hu
  | _ :: _ :: _, h, _, _ => simp at h

theorem trimEnd_ok {level : ℤ} {l out : List ℕ} {x : ℕ} (hs : l.Pairwise (· < ·)) (h : trimEnd level l x = .ok out) :
    out <+: l ∧ (l ≠ [] → out ≠ []) ∧ (∀ u ∈ out, ∀ v ∈ out, x < u → x < v → u = v) ∧
      (out = l ∨ ∃ y ∈ out, x < y) := by
  unfold trimEnd at h
  simp only at h
  split at h
  · rename_i hlen
    obtain ⟨_, _, h⟩ := bind_ok h
    obtain ⟨e0, hg, h⟩ := bind_ok h
    simp only [pure_eq_ok, Except.ok.injEq] at h
    obtain ⟨hi, he0⟩ := pyGet_ok hg
    have hmem : e0 ∈ l.filter (fun y => decide (y > x)) := by rw [← he0]; exact List.getElem_mem _
    obtain ⟨hml, hgt⟩ := List.mem_filter.mp hmem
    have hgt : x < e0 := by simpa using hgt
    have hsf : (l.filter (fun y => decide (y > x))).Pairwise (· < ·) := hs.sublist List.filter_sublist
    obtain ⟨k, hk, hke⟩ := List.getElem_of_mem hml
    have hout : out = l.take (k + 1) := by rw [← h, ← filter_le_take hs k hk, hke]
    have hin : e0 ∈ out := by rw [← h]; exact List.mem_filter.mpr ⟨hml, by simp⟩
    refine ⟨by rw [hout]; exact List.take_prefix _ _, fun _ hc => by rw [hc] at hin; simp at hin, ?_,
      Or.inr ⟨e0, hin, hgt⟩⟩
    have huniq : ∀ u ∈ out, x < u → u = e0 := by
      intro u hu hxu
      rw [← h] at hu
      obtain ⟨hul, hule⟩ := List.mem_filter.mp hu
      have h1 : u ≤ e0 := by simpa using hule
      have h2 := sorted_head_le hsf hi u (List.mem_filter.mpr ⟨hul, by simpa using hxu⟩)
      rw [he0] at h2
      omega
    intro u hu v hv hxu hxv
    rw [huniq u hu hxu, huniq v hv hxv]
  · rename_i hlen
    simp only [pure_eq_ok, Except.ok.injEq] at h
    subst h
    refine ⟨List.prefix_refl _, fun h => h, ?_, Or.inl rfl⟩
    intro u hu v hv hxu hxv
    exact eq_of_length_le_one hlen (List.mem_filter.mpr ⟨hu, by simpa using hxu⟩)
      (List.mem_filter.mpr ⟨hv, by simpa using hxv⟩)

theorem trimStart_ok {level : ℤ} {l out : List ℕ} {x : ℕ} (hs : l.Pairwise (· < ·)) (h : trimStart level l x = .ok out) :
    out <:+ l ∧ (l ≠ [] → out ≠ []) ∧ (∀ u ∈ out, ∀ v ∈ out, u < x → v < x → u = v) ∧
      (out = l ∨ ∃ y ∈ out, y < x) := by
  unfold trimStart at h
  simp only at h
  split at h
  · rename_i hlen
    obtain ⟨_, _, h⟩ := bind_ok h
    obtain ⟨e0, hg, h⟩ := bind_ok h
    simp only [pure_eq_ok, Except.ok.injEq] at h
    obtain ⟨hne, he0⟩ := pyLast_ok hg
    have hmem : e0 ∈ l.filter (fun y => decide (y < x)) := by rw [← he0]; exact List.getLast_mem _
    obtain ⟨hml, hgt⟩ := List.mem_filter.mp hmem
    have hgt : e0 < x := by simpa using hgt
    have hsf : (l.filter (fun y => decide (y < x))).Pairwise (· < ·) := hs.sublist List.filter_sublist
    obtain ⟨k, hk, hke⟩ := List.getElem_of_mem hml
    have hout : out = l.drop k := by rw [← h, ← filter_ge_drop hs k hk, hke]
    have hin : e0 ∈ out := by rw [← h]; exact List.mem_filter.mpr ⟨hml, by simp⟩
    refine ⟨by rw [hout]; exact List.drop_suffix _ _, fun _ hc => by rw [hc] at hin; simp at hin, ?_,
      Or.inr ⟨e0, hin, hgt⟩⟩
    have huniq : ∀ u ∈ out, u < x → u = e0 := by
      intro u hu hxu
      rw [← h] at hu
      obtain ⟨hul, hule⟩ := List.mem_filter.mp hu
      have h1 : e0 ≤ u := by simpa using hule
      have h2 := sorted_getLast_ge hsf hne u (List.mem_filter.mpr ⟨hul, by simpa using hxu⟩)
      rw [he0] at h2
      omega
    intro u hu v hv hxu hxv
    rw [huniq u hu hxu, huniq v hv hxv]
  · rename_i hlen
    simp only [pure_eq_ok, Except.ok.injEq] at h
    subst h
    refine ⟨List.suffix_refl _, fun h => h, ?_, Or.inl rfl⟩
    intro u hu v hv hxu hxv
    exact eq_of_length_le_one hlen (List.mem_filter.mpr ⟨hu, by simpa using hxu⟩)
      (List.mem_filter.mpr ⟨hv, by simpa using hxv⟩)

theorem trimEnd_id {level : ℤ} {l : List ℕ} {x : ℕ} (hs : l.Pairwise (· < ·))
    (h : ∀ u ∈ l, ∀ v ∈ l, x < u → x < v → u = v) : trimEnd level l x = .ok l := by
  unfold trimEnd
  simp only
  rw [if_neg]
  · rfl
  · intro hlen
    have hsf : (l.filter (fun y => decide (y > x))).Pairwise (· < ·) := hs.sublist List.filter_sublist
    have h01 := List.pairwise_iff_getElem.mp hsf 0 1 (by omega) hlen (by omega)
    have m0 := List.mem_filter.mp (List.getElem_mem (l := l.filter (fun y => decide (y > x))) (n := 0) (by omega))
    have m1 := List.mem_filter.mp (List.getElem_mem (l := l.filter (fun y => decide (y > x))) (n := 1) hlen)
    have := h _ m0.1 _ m1.1 (by simpa using m0.2) (by simpa using m1.2)
    omega

theorem trimStart_id {level : ℤ} {l : List ℕ} {x : ℕ} (hs : l.Pairwise (· < ·))
    (h : ∀ u ∈ l, ∀ v ∈ l, u < x → v < x → u = v) : trimStart level l x = .ok l := by
  unfold trimStart
  simp only
  rw [if_neg]
  · rfl
  · intro hlen
    have hsf : (l.filter (fun y => decide (y < x))).Pairwise (· < ·) := hs.sublist List.filter_sublist
    have h01 := List.pairwise_iff_getElem.mp hsf 0 1 (by omega) hlen (by omega)
    have m0 := List.mem_filter.mp (List.getElem_mem (l := l.filter (fun y => decide (y < x))) (n := 0) (by omega))
    have m1 := List.mem_filter.mp (List.getElem_mem (l := l.filter (fun y => decide (y < x))) (n := 1) hlen)
    have := h _ m0.1 _ m1.1 (by simpa using m0.2) (by simpa using m1.2)
    omega

theorem trimEnd_total {level : ℤ} (hl : level = -1 ∨ level = 0 ∨ level = 1) (l : List ℕ) (x : ℕ) :
    ∃ out, trimEnd level l x = .ok out := by
  obtain ⟨o, ho⟩ := debugMessage_false_ok hl
  unfold trimEnd
  simp only
  split
  · rename_i hlen
    rw [ho, pyGet_of_lt (show 0 < _ by omega)]; exact ⟨_, rfl⟩
  · exact ⟨_, rfl⟩

theorem trimStart_total {level : ℤ} (hl : level = -1 ∨ level = 0 ∨ level = 1) (l : List ℕ) (x : ℕ) :
    ∃ out, trimStart level l x = .ok out := by
  obtain ⟨o, ho⟩ := debugMessage_false_ok hl
  unfold trimStart
  simp only
  split
  · rename_i hlen
    rw [ho, pyLast_of_ne (by intro h; rw [h] at hlen; simp at hlen)]; exact ⟨_, rfl⟩
  · exact ⟨_, rfl⟩

theorem prefix_getElem_zero {l out : List ℕ} (h : out <+: l) (h0 : 0 < out.length) :
    ∃ h1 : 0 < l.length, l[0] = out[0] := by
  obtain ⟨r, rfl⟩ := h
  exact ⟨by simp; omega, by rw [List.getElem_append_left h0]⟩

theorem suffix_getLast {l out : List ℕ} (h : out <:+ l) (h0 : out ≠ []) :
    ∃ h1 : l ≠ [], l.getLast h1 = out.getLast h0 := by
  obtain ⟨r, rfl⟩ := h
  exact ⟨by simp [h0], by rw [List.getLast_append_of_ne_nil]⟩

/-- What `drop_extra_extrema_at_ends` guarantees. -/
theorem dropExtraAtEnds_ok {level : ℤ} {p a p' a' : List ℕ} (hp : p.Pairwise (· < ·)) (ha : a.Pairwise (· < ·))
    (h : dropExtraAtEnds level p a = .ok (p', a')) :
    p' <:+: p ∧ a' <:+: a ∧ p' ≠ [] ∧ a' ≠ [] ∧
    (∀ u ∈ p', ∀ v ∈ p', (∀ z ∈ a', z < u) → (∀ z ∈ a', z < v) → u = v) ∧
    (∀ u ∈ a', ∀ v ∈ a', (∀ z ∈ p', z < u) → (∀ z ∈ p', z < v) → u = v) ∧
    (∀ u ∈ p', ∀ v ∈ p', (∀ z ∈ a', u < z) → (∀ z ∈ a', v < z) → u = v) ∧
    (∀ u ∈ a', ∀ v ∈ a', (∀ z ∈ p', u < z) → (∀ z ∈ p', v < z) → u = v) := by
  unfold dropExtraAtEnds at h
  obtain ⟨aLast, hal, h⟩ := bind_ok h
  obtain ⟨p1, hp1, h⟩ := bind_ok h
  obtain ⟨pLast, hpl, h⟩ := bind_ok h
  obtain ⟨a1, ha1, h⟩ := bind_ok h
  obtain ⟨aFirst, haf, h⟩ := bind_ok h
  obtain ⟨p2, hp2, h⟩ := bind_ok h
  obtain ⟨pFirst, hpf, h⟩ := bind_ok h
  obtain ⟨a2, ha2, h⟩ := bind_ok h
  simp only [pure_eq_ok, Except.ok.injEq, Prod.mk.injEq] at h
  obtain ⟨rfl, rfl⟩ := h
  obtain ⟨hane, haL⟩ := pyLast_ok hal
  obtain ⟨hp1ne, hpL⟩ := pyLast_ok hpl
  obtain ⟨pre1, _, u1, c1⟩ := trimEnd_ok hp hp1
  have sp1 : p1.Pairwise (· < ·) := hp.sublist pre1.sublist
  obtain ⟨prea1, na1, ua1, ca1⟩ := trimEnd_ok ha ha1
  have sa1 : a1.Pairwise (· < ·) := ha.sublist prea1.sublist
  have ha1ne := na1 hane
  obtain ⟨suf2, n2, u2, c2⟩ := trimStart_ok sp1 hp2
  have sp2 : p2.Pairwise (· < ·) := sp1.sublist suf2.sublist
  have hp2ne := n2 hp1ne
  obtain ⟨sufa2, na2, ua2, ca2⟩ := trimStart_ok sa1 ha2
  have ha2ne := na2 ha1ne
  obtain ⟨h0a1, haF⟩ := pyGet_ok haf
  obtain ⟨h0p2, hpF⟩ := pyGet_ok hpf
  obtain ⟨_, hlastp⟩ := suffix_getLast suf2 hp2ne
  obtain ⟨_, hlasta⟩ := suffix_getLast sufa2 ha2ne
  refine ⟨suf2.isInfix.trans pre1.isInfix, sufa2.isInfix.trans prea1.isInfix, hp2ne, ha2ne, ?_, ?_, ?_, ?_⟩
  · intro u hu v hv hzu hzv
    have hL := List.getLast_mem ha2ne
    rw [← hlasta] at hL
    rcases ca1 with hc | ⟨y, hy, hlt⟩
    · subst hc
      apply u1 u (suf2.subset hu) v (suf2.subset hv)
      · rw [← haL]; exact hzu _ hL
      · rw [← haL]; exact hzv _ hL
    · exfalso
      have h1 := sorted_getLast_ge sa1 ha1ne y hy
      have h2 := hzu _ hL
      have h3 := sorted_getLast_ge sp1 hp1ne u (suf2.subset hu)
      rw [hpL] at h3
      omega
  · intro u hu v hv hzu hzv
    have hL := List.getLast_mem hp2ne
    rw [← hlastp, hpL] at hL
    exact ua1 u (sufa2.subset hu) v (sufa2.subset hv) (hzu _ hL) (hzv _ hL)
  · intro u hu v hv hzu hzv
    rcases ca2 with hc | ⟨y, hy, hlt⟩
    · subst hc
      have hF : aFirst ∈ a2 := by rw [← haF]; exact List.getElem_mem _
      exact u2 u hu v hv (hzu _ hF) (hzv _ hF)
    · exfalso
      have h1 := sorted_head_le sp2 h0p2 u hu
      rw [hpF] at h1
      have := hzu y hy
      omega
  · intro u hu v hv hzu hzv
    have hF : pFirst ∈ p2 := by rw [← hpF]; exact List.getElem_mem _
    exact ua2 u hu v hv (hzu _ hF) (hzv _ hF)

end GwEcc
