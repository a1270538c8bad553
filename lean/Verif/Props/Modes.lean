import Verif.Lemmas.Modes

/-!
# C47: packing of the modes for the frame rotation
-/

namespace GwEcc

variable {C : Type}

/-- `(ell, m)` is a mode with `ell` from 2 to `ellMax`. -/
def Spec.IsMode (ellMax : ℤ) (k : LM) : Prop := 2 ≤ k.1 ∧ k.1 ≤ ellMax ∧ -k.1 ≤ k.2 ∧ k.2 ≤ k.1

theorem packageModes_cases (zero : C) (modes : Dict LM (List C)) (ellMax : ℤ) (h1 : 1 ≤ ellMax) (h22 : List C)
    (hm : modes.get? (2, 2) = some h22) :
    ((∀ k, Spec.IsMode ellMax k → ∃ h, modes.get? k = some h ∧ h.length = h22.length) →
      ∃ cols, packageModes zero modes 2 ellMax = .ok cols ∧ cols.length = ((ellMax + 3) * (ellMax - 1)).toNat ∧
        ∀ k, Spec.IsMode ellMax k → cols[(scriIndex 2 k).toNat]? = modes.get? k) ∧
    ((∃ k, Spec.IsMode ellMax k ∧ ∀ h, modes.get? k = some h → h.length ≠ h22.length) →
      ∃ err, packageModes zero modes 2 ellMax = .error err) := by
  obtain ⟨n, hn⟩ : ∃ n : ℕ, ellMax = 1 + n := ⟨(ellMax - 1).toNat, by omega⟩
  subst hn
  obtain ⟨hl, ho⟩ := modeLoop_order n
  have hmem : ∀ k, k ∈ modeLoop 2 (1 + n) ↔ Spec.IsMode (1 + n) k := by
    intro k; rw [mem_modeLoop]; unfold Spec.IsMode; tauto
  have hne : ((1 + n : ℤ) + 3) * ((1 + n : ℤ) - 1) = ((n * (n + 4) : ℕ) : ℤ) := by push_cast; ring
  set start := List.replicate (n * (n + 4)) (List.replicate h22.length zero) with hs
  have hsl : start.length = n * (n + 4) := by simp [hs]
  have hp : packageModes zero modes 2 (1 + n) = ((modeLoop 2 (1 + n)).foldlM (packStep modes h22.length) (start, 0)).map
      (·.1) := by
    unfold packageModes Dict.getItem
    rw [hm, hne]
    simp only [ok_bind]
    rw [if_neg (by omega), Int.toNat_natCast]
    cases List.foldlM (packStep modes h22.length) (start, 0) (modeLoop 2 (1 + (n : ℤ))) <;> rfl
  have hloop := pack_loop modes h22.length (modeLoop 2 (1 + n)) start 0 (by omega)
  constructor
  · intro hall
    obtain ⟨cols, e1, e2, _, e4⟩ := hloop.1 (fun k hk => hall k ((hmem k).mp hk))
    refine ⟨cols, by rw [hp, e1]; rfl, by rw [e2, hsl, hne, Int.toNat_natCast], ?_⟩
    intro k hk
    obtain ⟨j, hj⟩ := List.mem_iff_getElem?.mp ((hmem k).mpr hk)
    have := e4 j k hj
    rw [Nat.zero_add] at this
    rw [ho j k hj, Int.toNat_natCast, this]
  · rintro ⟨k, hk, hbad⟩
    obtain ⟨err, he⟩ := hloop.2 ⟨k, (hmem k).mpr hk, hbad⟩
    exact ⟨err, by rw [hp, he]; rfl⟩

/-- Packing puts every mode in the column the rotation library reads it from, `ell * (ell + 1) - 4 + m`, and the array has
exactly one column per mode. -/
theorem C47_columns (zero : C) (modes : Dict LM (List C)) (ellMax : ℤ) (h2 : 2 ≤ ellMax) (cols : List (List C))
    (h : packageModes zero modes 2 ellMax = .ok cols) :
    cols.length = ((ellMax + 3) * (ellMax - 1)).toNat ∧
    ∀ l m : ℤ, 2 ≤ l → l ≤ ellMax → -l ≤ m → m ≤ l →
      ∃ v, modes.get? (l, m) = some v ∧ cols[(l * (l + 1) - 4 + m).toNat]? = some v := by
  cases h22 : modes.get? (2, 2) with
  | none => unfold packageModes Dict.getItem at h; rw [h22] at h; cases h
  | some h22v =>
    obtain ⟨ha, hb⟩ := packageModes_cases zero modes ellMax (by omega) h22v h22
    have hall : ∀ k, Spec.IsMode ellMax k → ∃ h, modes.get? k = some h ∧ h.length = h22v.length := by
      by_contra hc
      push Not at hc
      obtain ⟨k, hk, hbad⟩ := hc
      obtain ⟨err, he⟩ := hb ⟨k, hk, hbad⟩
      rw [he] at h; cases h
    obtain ⟨cols', e1, e2, e3⟩ := ha hall
    rw [e1] at h
    cases h
    refine ⟨e2, fun l m a b c d => ?_⟩
    have hk : Spec.IsMode ellMax (l, m) := ⟨a, b, c, d⟩
    obtain ⟨v, hv, _⟩ := hall _ hk
    refine ⟨v, hv, ?_⟩
    have := e3 _ hk
    rw [hv] at this
    exact this

/-- Packing succeeds exactly when every mode is there, all of one length. -/
theorem C47_missing_raises (zero : C) (modes : Dict LM (List C)) (ellMax : ℤ) (h2 : 2 ≤ ellMax) :
    (∃ cols, packageModes zero modes 2 ellMax = .ok cols) ↔
      ∃ n : ℕ, ∀ l m : ℤ, 2 ≤ l → l ≤ ellMax → -l ≤ m → m ≤ l → ∃ v, modes.get? (l, m) = some v ∧ v.length = n := by
  cases h22 : modes.get? (2, 2) with
  | none =>
    constructor
    · rintro ⟨cols, h⟩; unfold packageModes Dict.getItem at h; rw [h22] at h; cases h
    · rintro ⟨n, h⟩
      obtain ⟨v, hv, _⟩ := h 2 2 (by omega) (by omega) (by omega) (by omega)
      rw [h22] at hv; cases hv
  | some h22v =>
    obtain ⟨ha, hb⟩ := packageModes_cases zero modes ellMax (by omega) h22v h22
    constructor
    · rintro ⟨cols, h⟩
      refine ⟨h22v.length, fun l m a b c d => ?_⟩
      by_contra hc
      push Not at hc
      obtain ⟨err, he⟩ := hb ⟨(l, m), ⟨a, b, c, d⟩, hc⟩
      rw [he] at h; cases h
    · rintro ⟨n, h⟩
      obtain ⟨cols, e1, _⟩ := ha (fun k hk => by
        obtain ⟨v, hv, hl⟩ := h k.1 k.2 hk.1 hk.2.1 hk.2.2.1 hk.2.2.2
        obtain ⟨v', hv', hl'⟩ := h 2 2 (by omega) (by omega) (by omega) (by omega)
        rw [h22] at hv'
        cases hv'
        exact ⟨v, hv, by rw [hl, hl']⟩)
      exact ⟨cols, e1⟩

theorem pack_loop_raises (modes : Dict LM (List C)) (rows : ℕ) (hsame : ∀ k v, modes.get? k = some v → v.length = rows) :
    ∀ (ks : List LM) (cols : List (List C)) (i : ℕ), i + ks.length ≤ cols.length → (∃ k ∈ ks, modes.get? k = none) →
      ks.foldlM (packStep modes rows) (cols, i) = .error .exception
  | [], _, _, _, h => by simp at h
  | k :: ks, cols, i, hlen, h => by
    simp only [List.length_cons] at hlen
    rw [List.foldlM_cons]
    cases hk : modes.get? k with
    | none => simp only [packStep, hk]; rfl
    | some v =>
      have : packStep modes rows (cols, i) k = .ok (cols.set i v, i + 1) := by
        simp only [packStep, hk]
        rw [if_neg (by omega), if_neg (by simpa using hsame k v hk)]
      rw [this]
      refine pack_loop_raises modes rows hsame ks _ _ (by rw [List.length_set]; omega) ?_
      obtain ⟨k', hm, hn⟩ := h
      rcases List.mem_cons.mp hm with rfl | hm
      · rw [hk] at hn; cases hn
      · exact ⟨k', hm, hn⟩

/-- What a missing mode raises: the package's own exception, unless it is `(2, 2)`, whose absence is a `KeyError`. -/
theorem C47_missing_error (zero : C) (modes : Dict LM (List C)) (ellMax : ℤ) (h2 : 2 ≤ ellMax) (n : ℕ)
    (hsame : ∀ k v, modes.get? k = some v → v.length = n) (l m : ℤ) (hl : 2 ≤ l) (hl' : l ≤ ellMax) (hm : -l ≤ m)
    (hm' : m ≤ l) (hno : modes.get? (l, m) = none) :
    packageModes zero modes 2 ellMax = .error (if modes.get? (2, 2) = none then .keyError else .exception) := by
  cases h22 : modes.get? (2, 2) with
  | none => unfold packageModes Dict.getItem; rw [h22]; rfl
  | some h22v =>
    obtain ⟨q, hq⟩ : ∃ q : ℕ, ellMax = 1 + q := ⟨(ellMax - 1).toNat, by omega⟩
    subst hq
    obtain ⟨hlen, -⟩ := modeLoop_order q
    have hne : ((1 + q : ℤ) + 3) * ((1 + q : ℤ) - 1) = ((q * (q + 4) : ℕ) : ℤ) := by push_cast; ring
    rw [if_neg (by simp)]
    unfold packageModes Dict.getItem
    rw [h22, hne]
    simp only [ok_bind]
    rw [if_neg (by omega), Int.toNat_natCast, hsame _ _ h22]
    rw [pack_loop_raises modes n hsame _ _ 0 (by simp [hlen]) ⟨(l, m), by rw [mem_modeLoop]; exact ⟨⟨hl, hl'⟩, hm, hm'⟩, hno⟩]
    rfl

/-- Unpacking what was packed restores each mode, and nothing else. -/
theorem C47_roundtrip (zero : C) (modes : Dict LM (List C)) (ellMax : ℤ) (h2 : 2 ≤ ellMax) (cols : List (List C))
    (h : packageModes zero modes 2 ellMax = .ok cols) :
    ∃ d, unpackModes cols 2 ellMax = .ok d ∧
      (∀ l m : ℤ, 2 ≤ l → l ≤ ellMax → -l ≤ m → m ≤ l → d.get? (l, m) = modes.get? (l, m)) ∧
      ∀ k v, d.get? k = some v → 2 ≤ k.1 ∧ k.1 ≤ ellMax ∧ -k.1 ≤ k.2 ∧ k.2 ≤ k.1 := by
  obtain ⟨hlen, hcols⟩ := C47_columns zero modes ellMax h2 cols h
  have hlt : ∀ k ∈ modeLoop 2 ellMax, (scriIndex 2 k).toNat < cols.length := by
    intro k hk
    obtain ⟨⟨a, b⟩, c, d⟩ := mem_modeLoop.mp hk
    obtain ⟨v, _, hv⟩ := hcols k.1 k.2 a b c d
    exact (List.getElem?_eq_some_iff.mp hv).1
  obtain ⟨d, h1, h3⟩ := unpack_loop cols (fun k => (scriIndex 2 k).toNat) (modeLoop 2 ellMax) [] hlt
  refine ⟨d, h1, ?_, ?_⟩
  · intro l m a b c e
    rw [h3, if_pos (mem_modeLoop.mpr ⟨⟨a, b⟩, c, e⟩)]
    obtain ⟨v, hv, hc⟩ := hcols l m a b c e
    rw [hv]; exact hc
  · intro k v hv
    rw [h3] at hv
    split at hv
    · rename_i hk
      obtain ⟨⟨a, b⟩, c, e⟩ := mem_modeLoop.mp hk
      exact ⟨a, b, c, e⟩
    · cases hv

example : packageModes (0 : ℤ) [((2, 2), [1]), ((2, -2), [2]), ((2, 0), [3]), ((2, 1), [4]), ((2, -1), [5]), ((3, 3), [9])]
    2 2 = .ok [[2], [5], [3], [4], [1]] := by decide +kernel

example : packageModes (0 : ℤ) [((2, 2), [1]), ((2, -2), [2])] 2 2 = .error .exception := by decide +kernel

end GwEcc
