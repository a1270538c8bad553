import Verif.Lemmas.ConstructOk
import Verif.Lemmas.Heap
import Verif.Spec.Rescale

set_option linter.unusedSectionVars false

/-! No mode has more samples than there are times, at any stage of the preparation. -/

namespace GwEcc

open Spec

section
variable {K C : Type} [Field K] [LinearOrder K]

/-- At most `n` samples in every real mode. -/
def RealShort (n : ℕ) (e : Entry K C) : Prop := ∀ d, e = .modesR d → ∀ p ∈ d, p.2.length ≤ n

/-- At most `n` samples in every complex mode, after conversion. -/
def ComplexShort (lib : WaveLib K C) (n : ℕ) (e : Entry K C) : Prop :=
  ∀ d, e = .modesC d → ∀ p ∈ d, (lib.abs p.2).length ≤ n ∧ (lib.phase p.2).length ≤ n

/-- A dictionary with at most `n` samples everywhere. -/
structure Sampled (lib : WaveLib K C) (n : ℕ) (v : DataV K C) : Prop where
  t : ∀ l, v.get? "t" = some (.arr l) → l.length = n
  real : ∀ key ∈ ["amplm", "phaselm", "omegalm"], ∀ e, v.get? key = some e → RealShort n e
  complex : ∀ e, v.get? "hlm" = some e → ComplexShort lib n e

theorem array_of {v : DataV K C} {key : String} {l : List K} (h : v.get? key = some (.arr l)) : array v key = some l := by
  unfold array
  rw [h]; rfl

theorem sampled_of {lib : WaveLib K C} {v : DataV K C} (h : OneSampleEach lib v) {t : List K}
    (ht : v.get? "t" = some (.arr t)) : Sampled lib t.length v := by
  refine ⟨?_, ?_, ?_⟩
  · intro l hl
    rw [ht] at hl
    cases hl
    rfl
  · rintro key hk e he d rfl ⟨m, l⟩ hp
    have hn := (h.proper _ _ he).1 _ rfl
    refine (h.real key hk t m l (array_of ht) ?_).le
    rw [realMode_of he]
    exact get?_of_mem hn hp
  · rintro e he d rfl ⟨m, l⟩ hp
    have hn := (h.proper _ _ he).2 _ rfl
    have := h.complex t m l (array_of ht) (by rw [complexMode_of he]; exact get?_of_mem hn hp)
    exact ⟨this.1.le, this.2.le⟩

theorem foldl_set_mem {X Y : Type} (conv : X → Y) : ∀ (d : Dict LM X) (acc : Dict LM Y) (p : LM × Y),
    p ∈ d.foldl (fun acc p => acc.set p.1 (conv p.2)) acc → p ∈ acc ∨ ∃ q ∈ d, p = (q.1, conv q.2)
  | [], acc, p, h => .inl h
  | q :: d, acc, p, h => by
    rw [List.foldl_cons] at h
    rcases foldl_set_mem conv d _ p h with h | ⟨r, hr, h⟩
    · rcases mem_set h with h | h
      · exact .inl h
      · exact .inr ⟨q, by simp, h⟩
    · exact .inr ⟨r, by simp [hr], h⟩

theorem realModes_short {lib : WaveLib K C} {n : ℕ} {v : DataV K C} (hv : Sampled lib n v) (conv : List C → List K)
    {name : String} (hn : name ∈ ["amplm", "phaselm", "omegalm"])
    (hc : ∀ e d, v.get? "hlm" = some e → e = .modesC d → ∀ p ∈ d, (conv p.2).length ≤ n) {d : Dict LM (List K)}
    (h : realModes conv name "" v = .ok d) : ∀ p ∈ d, p.2.length ≤ n := by
  unfold realModes at h
  simp only [String.append_empty] at h
  split at h
  · obtain ⟨e, he, h⟩ := bind_ok h
    cases h
    intro p hp
    rcases mem_update hp with hp | hp
    · cases hp
    · exact hv.real name hn _ (getR_ok he) _ rfl p hp
  · split at h
    · obtain ⟨e, he, h⟩ := bind_ok h
      cases h
      intro p hp
      rcases foldl_set_mem conv e [] p hp with hp | ⟨q, hq, rfl⟩
      · cases hp
      · exact hc _ _ (getC_ok he) rfl q hq
    · simp at h

theorem ampModes_short {lib : WaveLib K C} {n : ℕ} {v : DataV K C} (hv : Sampled lib n v) {d : Dict LM (List K)}
    (h : realModes lib.abs "amplm" "" v = .ok d) : ∀ p ∈ d, p.2.length ≤ n :=
  realModes_short hv lib.abs (by simp) (fun e d he hd p hp => (hv.complex e he d hd p hp).1) h

theorem phaseModes_short {lib : WaveLib K C} {n : ℕ} {v : DataV K C} (hv : Sampled lib n v) {d : Dict LM (List K)}
    (h : realModes lib.phase "phaselm" "" v = .ok d) : ∀ p ∈ d, p.2.length ≤ n :=
  realModes_short hv lib.phase (by simp) (fun e d he hd p hp => (hv.complex e he d hd p hp).2) h

theorem timeDeriv4_len {y w : List K} {dt : K} (h : timeDeriv4 y dt = .ok w) : w.length = y.length := by
  unfold timeDeriv4 at h
  split at h
  · cases h
  · cases h
    simp

theorem omegaModes_short {n : ℕ} {t : List K} {d w : Dict LM (List K)} (hd : ∀ p ∈ d, p.2.length ≤ n)
    (h : omegaModes t d = .ok w) : ∀ p ∈ w, p.2.length ≤ n := by
  unfold omegaModes at h
  have key : ∀ (e acc w : Dict LM (List K)), (∀ p ∈ e, p.2.length ≤ n) → (∀ p ∈ acc, p.2.length ≤ n) →
      e.foldlM (fun acc p => do
        let t1 ← pyGet t 1
        let t0 ← pyGet t 0
        let w ← timeDeriv4 p.2 (t1 - t0)
        pure (acc.set p.1 w)) acc = (.ok w : Py (Dict LM (List K))) → ∀ p ∈ w, p.2.length ≤ n := by
    intro e
    induction e with
    | nil =>
      intro acc w _ ha h
      cases h
      exact ha
    | cons q e ih =>
      intro acc w he ha h
      rw [List.foldlM_cons] at h
      obtain ⟨acc', h1, h⟩ := bind_ok h
      obtain ⟨t1, _, h1⟩ := bind_ok h1
      obtain ⟨t0, _, h1⟩ := bind_ok h1
      obtain ⟨x, hx, h1⟩ := bind_ok h1
      cases h1
      refine ih _ _ (fun p hp => he p (by simp [hp])) ?_ h
      intro p hp
      rcases mem_set hp with hp | rfl
      · exact ha p hp
      · exact (timeDeriv4_len hx).le.trans (he q (by simp))
  exact key d d w hd hd h

theorem pyGet_mem {α : Type} {l : List α} {i : ℕ} {x : α} (h : pyGet l i = .ok x) : x ∈ l := by
  unfold pyGet at h
  cases hx : l[i]? with
  | none => rw [hx] at h; cases h
  | some y =>
    rw [hx] at h
    cases h
    exact List.mem_of_getElem? hx

theorem unpackModes_mem {X : Type} {cols : List (List X)} {l1 l2 : ℤ} {d : Dict LM (List X)}
    (h : unpackModes cols l1 l2 = .ok d) : ∀ p ∈ d, p.2 ∈ cols := by
  unfold unpackModes at h
  have key : ∀ (l : List LM) (acc d : Dict LM (List X)), (∀ p ∈ acc, p.2 ∈ cols) →
      l.foldlM (fun acc k => do
        let col ← pyGet cols (scriIndex l1 k).toNat
        pure (acc.set k col)) acc = (.ok d : Py (Dict LM (List X))) → ∀ p ∈ d, p.2 ∈ cols := by
    intro l
    induction l with
    | nil =>
      intro acc w ha h
      cases h
      exact ha
    | cons q e ih =>
      intro acc w ha h
      rw [List.foldlM_cons] at h
      obtain ⟨acc', h1, h⟩ := bind_ok h
      obtain ⟨x, hx, h1⟩ := bind_ok h1
      cases h1
      refine ih _ _ ?_ h
      intro p hp
      rcases mem_set hp with hp | rfl
      · exact ha p hp
      · exact pyGet_mem hx
  exact key _ [] d (by simp) h

theorem polarModes_short {lib : WaveLib K C} {n : ℕ}
    (hpol : ∀ a p h, lib.polar a p = .ok h → (lib.abs h).length ≤ a.length ∧ (lib.phase h).length ≤ a.length)
    {a p : Dict LM (List K)} {h : Dict LM (List C)} (ha : ∀ q ∈ a, q.2.length ≤ n) (hh : polarModes lib a p = .ok h) :
    ∀ q ∈ h, (lib.abs q.2).length ≤ n ∧ (lib.phase q.2).length ≤ n := by
  unfold polarModes at hh
  have key : ∀ (e : Dict LM (List K)) (acc w : Dict LM (List C)), (∀ p ∈ e, p.2.length ≤ n) →
      (∀ q ∈ acc, (lib.abs q.2).length ≤ n ∧ (lib.phase q.2).length ≤ n) →
      e.foldlM (fun acc q => do
        let phi ← p.getItem q.1
        let h ← lib.polar q.2 phi
        pure (acc.set q.1 h)) acc = (.ok w : Py (Dict LM (List C))) →
      ∀ q ∈ w, (lib.abs q.2).length ≤ n ∧ (lib.phase q.2).length ≤ n := by
    intro e
    induction e with
    | nil =>
      intro acc w _ ha h
      cases h
      exact ha
    | cons q e ih =>
      intro acc w he ha h
      rw [List.foldlM_cons] at h
      obtain ⟨acc', h1, h⟩ := bind_ok h
      obtain ⟨phi, _, h1⟩ := bind_ok h1
      obtain ⟨x, hx, h1⟩ := bind_ok h1
      cases h1
      refine ih _ _ (fun p hp => he p (by simp [hp])) ?_ h
      intro p hp
      rcases mem_set hp with hp | rfl
      · exact ha p hp
      · have := hpol _ _ _ hx
        exact ⟨this.1.trans (he q (by simp)), this.2.trans (he q (by simp))⟩
  exact key a [] h ha (by simp) hh

/-- What is assumed of rotation and of the conversion to complex modes. -/
structure ShortLib (lib : WaveLib K C) : Prop where
  rotate : ∀ t cols cols', lib.rotate t cols = .ok cols' → ∀ l ∈ cols',
    (lib.abs l).length ≤ t.length ∧ (lib.phase l).length ≤ t.length
  polar : ∀ a p h, lib.polar a p = .ok h → (lib.abs h).length ≤ a.length ∧ (lib.phase h).length ≤ a.length

theorem rotatedModes_short {lib : WaveLib K C} (hl : ShortLib lib) {n : ℕ} {v : DataV K C}
    (hv : ∀ l, v.get? "t" = some (.arr l) → l.length = n) {r : Dict LM (List C)} (h : rotatedModes lib v "" = .ok r) :
    ∀ q ∈ r, (lib.abs q.2).length ≤ n ∧ (lib.phase q.2).length ≤ n := by
  unfold rotatedModes at h
  obtain ⟨x, _, h⟩ := bind_ok h
  obtain ⟨cols, _, h⟩ := bind_ok h
  obtain ⟨t, ht, h⟩ := bind_ok h
  obtain ⟨cols', hr, h⟩ := bind_ok h
  intro q hq
  have := hl.rotate _ _ _ hr _ (unpackModes_mem h q hq)
  rwa [hv t (getArr_ok ht)] at this

/-- The complex modes built from amplitudes and phases. -/
theorem builtModes_short {lib : WaveLib K C} (hl : ShortLib lib) {n : ℕ} {v h : DataV K C} (hv : Sampled lib n v)
    (hh : builtModes lib v = .ok h) : ∃ (m : Dict LM (List C)) (rest : DataV K C), h = ("hlm", .modesC m) :: rest ∧
      (rest = [] ∨ ∃ m0, rest = [("hlm_zeroecc", .modesC m0)]) ∧
      ∀ q ∈ m, (lib.abs q.2).length ≤ n ∧ (lib.phase q.2).length ≤ n := by
  unfold builtModes at hh
  obtain ⟨ampD, h1, hh⟩ := bind_ok hh
  obtain ⟨phD, h2, hh⟩ := bind_ok hh
  unfold realModesDict at h1
  obtain ⟨a, ha, h1⟩ := bind_ok h1
  obtain ⟨z, hz, h1⟩ := bind_ok h1
  cases h1
  unfold hlmFromAmpPhase at hh
  obtain ⟨a', ha', hh⟩ := bind_ok hh
  obtain ⟨p', hp', hh⟩ := bind_ok hh
  obtain ⟨m, hm, hh⟩ := bind_ok hh
  have e := getR_ok ha'
  unfold withZeroecc at e
  rw [Dict.get?_cons, if_pos rfl] at e
  rw [← Entry.modesR.inj (Option.some.inj e)] at hm
  have hs := polarModes_short hl.polar (ampModes_short hv ha) hm
  split at hh
  · obtain ⟨_, _, hh⟩ := bind_ok hh
    obtain ⟨_, _, hh⟩ := bind_ok hh
    obtain ⟨m0, _, hh⟩ := bind_ok hh
    cases hh
    exact ⟨m, _, rfl, .inr ⟨m0, rfl⟩, hs⟩
  · cases hh
    exact ⟨m, _, rfl, .inl rfl, hs⟩

theorem Sampled.set_other {lib : WaveLib K C} {n : ℕ} {v : DataV K C} (hv : Sampled lib n v) {key : String}
    (hk : key ∉ ["t", "amplm", "phaselm", "omegalm", "hlm"]) (e : Entry K C) : Sampled lib n (v.set key e) := by
  simp only [List.mem_cons, List.not_mem_nil, or_false, not_or] at hk
  refine ⟨?_, ?_, ?_⟩
  · intro l
    rw [Dict.get?_set, if_neg (Ne.symm hk.1)]
    exact hv.t l
  · intro k hkm x
    rw [Dict.get?_set, if_neg]
    · exact hv.real k hkm x
    · rintro rfl
      simp at hkm
      tauto
  · intro x
    rw [Dict.get?_set, if_neg (by tauto)]
    exact hv.complex x

theorem Sampled.set_hlm {lib : WaveLib K C} {n : ℕ} {v : DataV K C} (hv : Sampled lib n v) {r : Dict LM (List C)}
    (hr : ∀ q ∈ r, (lib.abs q.2).length ≤ n ∧ (lib.phase q.2).length ≤ n) : Sampled lib n (v.set "hlm" (.modesC r)) := by
  refine ⟨?_, ?_, ?_⟩
  · intro l
    rw [Dict.get?_set, if_neg (by decide)]
    exact hv.t l
  · intro k hkm x
    rw [Dict.get?_set, if_neg]
    · exact hv.real k hkm x
    · rintro rfl
      simp at hkm
  · intro x
    rw [Dict.get?_set, if_pos rfl]
    rintro ⟨rfl⟩ d ⟨rfl⟩
    exact hr

theorem Sampled.del {lib : WaveLib K C} {n : ℕ} {v : DataV K C} (hv : Sampled lib n v) (key : String) :
    Sampled lib n (Dict.del v key) := by
  refine ⟨?_, ?_, ?_⟩
  · intro l h
    rw [Dict.get?_del] at h
    split at h
    · cases h
    · exact hv.t l h
  · intro k hkm x h
    rw [Dict.get?_del] at h
    split at h
    · cases h
    · exact hv.real k hkm x h
  · intro x h
    rw [Dict.get?_del] at h
    split at h
    · cases h
    · exact hv.complex x h

theorem transform_short {lib : WaveLib K C} (hl : ShortLib lib) {n : ℕ} {v v' : DataV K C} (hv : Sampled lib n v)
    {tag : String} (ht : tag = "" ∨ tag = "_zeroecc") (h : transform lib v tag = .ok v') : Sampled lib n v' := by
  unfold transform at h
  have hset : ∀ (w : DataV K C) (r : Dict LM (List C)), Sampled lib n w → rotatedModes lib w tag = .ok r →
      Sampled lib n (w.set ("hlm" ++ tag) (.modesC r)) := by
    intro w r hw hr
    rcases ht with rfl | rfl
    · exact hw.set_hlm (rotatedModes_short hl hw.t hr)
    · exact hw.set_other (by decide) _
  split at h
  · obtain ⟨r, hr, h⟩ := bind_ok h
    cases h
    exact (hset v r hv hr).del _
  · obtain ⟨x, hx, h⟩ := bind_ok h
    obtain ⟨r, hr, h⟩ := bind_ok h
    cases h
    obtain ⟨m, rest, rfl, hrest, hm⟩ := builtModes_short hl hv hx
    have hu : Sampled lib n (v.update (("hlm", .modesC m) :: rest)) := by
      rcases hrest with rfl | ⟨m0, rfl⟩
      · exact hv.set_hlm hm
      · exact (hv.set_hlm hm).set_other (key := "hlm_zeroecc") (by decide) _
    exact (((hset _ r hu hr).del _).del _).del _

theorem transform_times {lib : WaveLib K C} {v v' : DataV K C} {tag : String} (ht : tag = "" ∨ tag = "_zeroecc")
    (h : transform lib v tag = .ok v') : ∀ key ∈ ["t", "t_zeroecc"], v'.get? key = v.get? key := by
  unfold transform at h
  have ne : ∀ key ∈ ["t", "t_zeroecc"], key ≠ "hlm" ++ tag ∧ key ≠ "amplm" ++ tag ∧ key ≠ "phaselm" ++ tag ∧
      key ≠ "omegalm" ++ tag ∧ key ≠ "hlm" ∧ key ≠ "hlm_zeroecc" := by
    rcases ht with rfl | rfl <;> decide
  intro key hk
  obtain ⟨n1, n2, n3, n4, n5, n6⟩ := ne key hk
  split at h
  · obtain ⟨r, hr, h⟩ := bind_ok h
    cases h
    rw [Dict.get?_del, if_neg n4, Dict.get?_set, if_neg n1]
  · obtain ⟨x, hx, h⟩ := bind_ok h
    obtain ⟨r, hr, h⟩ := bind_ok h
    cases h
    rw [Dict.get?_del, if_neg n4, Dict.get?_del, if_neg n3, Dict.get?_del, if_neg n2, Dict.get?_set, if_neg n1]
    unfold builtModes at hx
    obtain ⟨ampD, h1, hx⟩ := bind_ok hx
    obtain ⟨phD, h2, hx⟩ := bind_ok hx
    unfold hlmFromAmpPhase at hx
    obtain ⟨a', ha', hx⟩ := bind_ok hx
    obtain ⟨p', hp', hx⟩ := bind_ok hx
    obtain ⟨m, hm, hx⟩ := bind_ok hx
    split at hx
    · obtain ⟨_, _, hx⟩ := bind_ok hx
      obtain ⟨_, _, hx⟩ := bind_ok hx
      obtain ⟨m0, _, hx⟩ := bind_ok hx
      cases hx
      show ((v.set "hlm" _).set "hlm_zeroecc" _).get? key = _
      rw [Dict.get?_set, if_neg n6, Dict.get?_set, if_neg n5]
    · cases hx
      show (v.set "hlm" _).get? key = _
      rw [Dict.get?_set, if_neg n5]

theorem toCoprecessing_short {lib : WaveLib K C} (hl : ShortLib lib) {n : ℕ} {v v' : DataV K C} (hv : Sampled lib n v)
    (h : toCoprecessing lib v = .ok v') : Sampled lib n v' := by
  unfold toCoprecessing at h
  obtain ⟨x, hx, h⟩ := bind_ok h
  have h1 := transform_short hl hv (Or.inl rfl) hx
  split at h
  · exact transform_short hl h1 (Or.inr rfl) h
  · cases h
    exact h1

theorem toCoprecessing_t {lib : WaveLib K C} {v v' : DataV K C} (h : toCoprecessing lib v = .ok v') :
    ∀ key ∈ ["t", "t_zeroecc"], v'.get? key = v.get? key := by
  unfold toCoprecessing at h
  obtain ⟨x, hx, h⟩ := bind_ok h
  have h1 := transform_times (Or.inl rfl) hx
  split at h
  · exact fun key hk => (transform_times (Or.inr rfl) h key hk).trans (h1 key hk)
  · cases h
    exact h1

theorem newData_short {lib : WaveLib K C} {n : ℕ} {v nd : DataV K C} (hv : Sampled lib n v) (h : newData lib v = .ok nd) :
    Sampled lib n nd := by
  have sp := newData_spec h
  obtain ⟨a, z, ha, _, hna, _⟩ := sp.amp
  obtain ⟨p, q, w, hp, _, hnp, _, hnw, hw, _⟩ := sp.omega
  refine ⟨?_, ?_, ?_⟩
  · intro l hl
    rw [sp.t.2] at hl
    exact hv.t l hl
  · intro key hk e he
    simp only [List.mem_cons, List.not_mem_nil, or_false] at hk
    rcases hk with rfl | rfl | rfl
    · rw [hna] at he
      cases he
      rintro d ⟨rfl⟩
      exact ampModes_short hv ha
    · rw [hnp] at he
      cases he
      rintro d ⟨rfl⟩
      exact phaseModes_short hv hp
    · rw [hnw] at he
      cases he
      rcases hw with hw | ⟨_, t, w', _, hw', rfl⟩
      · exact hv.real "omegalm" (by simp) _ hw
      · rintro d ⟨rfl⟩
        exact omegaModes_short (phaseModes_short hv hp) hw'
  · intro e he
    rw [sp.rest "hlm" (by decide)] at he
    cases he

theorem cut_short {lib : WaveLib K C} {idx n : ℕ} {nd nd' : DataV K C} (hv : Sampled lib n nd) {a p : Dict LM (List K)}
    (ha : nd.get? "amplm" = some (.modesR a)) (hp : nd.get? "phaselm" = some (.modesR p)) (hh : nd.get? "hlm" = none)
    (h : cutData idx nd = .ok nd') : Sampled lib (min idx n) nd' := by
  obtain ⟨w, w', t, hw, hw', ht, get⟩ := cutData_ok h ha hp
  have short : ∀ (d : Dict LM (List K)), (∀ p ∈ d, p.2.length ≤ n) →
      ∀ p ∈ d.map (fun q => (q.1, q.2.take idx)), p.2.length ≤ min idx n := by
    intro d hd p hp
    obtain ⟨q, hq, rfl⟩ := List.mem_map.mp hp
    rw [List.length_take]
    exact min_le_min le_rfl (hd q hq)
  refine ⟨?_, ?_, ?_⟩
  · intro l hl
    rw [get, if_pos rfl] at hl
    cases hl
    rw [List.length_take, hv.t t ht]
  · intro key hk e he
    simp only [List.mem_cons, List.not_mem_nil, or_false] at hk
    rw [get] at he
    rcases hk with rfl | rfl | rfl
    · simp at he
      subst he
      rintro d ⟨rfl⟩
      exact short a (hv.real _ (by simp) _ ha _ rfl)
    · simp at he
      subst he
      rintro d ⟨rfl⟩
      exact short p (hv.real _ (by simp) _ hp _ rfl)
    · simp at he
      subst he
      cases w with
      | modesR d =>
        cases hw'
        rintro d ⟨rfl⟩
        exact short _ (hv.real _ (by simp) _ hw _ rfl)
      | modesC d =>
        cases hw'
        rintro d ⟨⟩
      | arr l => cases hw'
      | other => cases hw'
  · intro e he
    rw [get] at he
    simp [hh] at he

end

section
variable {K C : Type} [Field K] [LinearOrder K] [FloorRing K]

/-- After the preparation. -/
theorem processData_short {lib : WaveLib K C} (hl : ShortLib lib) {pr : Flag} {frame : String} {v nd : DataV K C}
    {n : Option K} {r : Analysis K} (hs : OneSampleEach lib v) (h : processData lib pr frame v n = .ok (nd, r)) :
    ∃ (t : List K) (idx : ℕ), v.get? "t" = some (.arr t) ∧ nd.get? "t" = some (.arr (t.take idx)) ∧
      Sampled lib (t.take idx).length nd ∧ nd.get? "t_zeroecc" = v.get? "t_zeroecc" := by
  obtain ⟨v', full, _, hv', hnd, han, hcut⟩ := processData_ok h
  obtain ⟨t, _, a, _, _, _, _, _, _, _, _, ht, ha, _⟩ := (analyse_spec han).parts
  have sp := newData_spec hnd
  have hkeys : ∀ key ∈ ["t", "t_zeroecc"], v'.get? key = v.get? key := by
    split at hv'
    · exact toCoprecessing_t hv'
    · cases hv'
      exact fun _ _ => rfl
  have htv : v.get? "t" = some (.arr t) := by rw [← hkeys "t" (by simp), ← sp.t.2, ht]
  have hz : full.get? "t_zeroecc" = v.get? "t_zeroecc" := by rw [sp.t0, hkeys "t_zeroecc" (by simp)]
  have s0 := sampled_of hs htv
  have s1 : Sampled lib t.length v' := by
    split at hv'
    · exact toCoprecessing_short hl s0 hv'
    · cases hv'
      exact s0
  have s2 := newData_short s1 hnd
  rcases hcut with ⟨_, rfl⟩ | ⟨idx, _, hc⟩
  · exact ⟨t, t.length, htv, by rw [List.take_length]; exact ht, by rw [List.take_length]; exact s2, hz⟩
  · obtain ⟨p, q, w, hp, _, hnp, _⟩ := sp.omega
    have s3 := cut_short s2 ha hnp (sp.rest "hlm" (by decide)) hc
    obtain ⟨_, _, t2, _, _, ht2, get⟩ := cutData_ok hc ha hnp
    rw [ht] at ht2
    cases ht2
    refine ⟨t, idx, htv, by rw [get, if_pos rfl], by rw [List.length_take]; exact s3, ?_⟩
    rw [get]
    simpa using hz

theorem npZip_len {f : K → K → K} {a b r : List K} (h : npZip f a b = .ok r) : r.length = a.length := by
  unfold npZip at h
  split at h
  · rename_i hl
    cases h
    simp [hl]
  · cases h

theorem gwQuantities_short {lib : WaveLib K C} {n : ℕ} {nd : DataV K C} (hs : Sampled lib n nd) {pr : Bool}
    {amp phase omega : List K} (h : gwQuantities pr nd "" = .ok (amp, phase, omega)) : amp.length ≤ n ∧ omega.length ≤ n := by
  unfold gwQuantities at h
  simp only [String.append_empty] at h
  obtain ⟨a, ha, h⟩ := bind_ok h
  obtain ⟨p, hp, h⟩ := bind_ok h
  have fa : ∀ m l, a.getItem m = .ok l → l.length ≤ n := fun m l hl =>
    hs.real "amplm" (by simp) _ (getR_ok ha) _ rfl _ (mem_of_get? (getItem_ok hl))
  have fw : ∀ w, getR nd "omegalm" = .ok w → ∀ m l, w.getItem m = .ok l → l.length ≤ n := fun w hw m l hl =>
    hs.real "omegalm" (by simp) _ (getR_ok hw) _ rfl _ (mem_of_get? (getItem_ok hl))
  split at h
  · obtain ⟨x, hx, h⟩ := bind_ok h
    obtain ⟨y, hy, h⟩ := bind_ok h
    obtain ⟨w, hw, h⟩ := bind_ok h
    obtain ⟨z, hz, h⟩ := bind_ok h
    cases h
    exact ⟨fa _ _ hx, fw _ hw _ _ hz⟩
  · split at h
    · cases h
    · split at h
      · cases h
      · obtain ⟨x, hx, h⟩ := bind_ok h
        obtain ⟨x', hx', h⟩ := bind_ok h
        obtain ⟨A, hA, h⟩ := bind_ok h
        obtain ⟨y, hy, h⟩ := bind_ok h
        obtain ⟨y', hy', h⟩ := bind_ok h
        obtain ⟨P, hP, h⟩ := bind_ok h
        obtain ⟨w, hw, h⟩ := bind_ok h
        obtain ⟨z, hz, h⟩ := bind_ok h
        obtain ⟨z', hz', h⟩ := bind_ok h
        obtain ⟨W, hW, h⟩ := bind_ok h
        cases h
        exact ⟨(npZip_len hA).le.trans (fa _ _ hx), (npZip_len hW).le.trans (fw _ hw _ _ hz)⟩

theorem mapM_len {α β : Type} {f : α → Py β} : ∀ {l : List α} {r : List β}, l.mapM f = .ok r → r.length = l.length
  | [], r, h => by cases h; rfl
  | a :: l, r, h => by
    rw [List.mapM_cons] at h
    obtain ⟨b, _, h⟩ := bind_ok h
    obtain ⟨bs, hbs, h⟩ := bind_ok h
    cases h
    rw [List.length_cons, List.length_cons, mapM_len hbs]

theorem combine_len {hanning : ℕ → List K} {t r : List K} {segs : List (Filter.Segment K)}
    (h : Filter.combine hanning t segs = .ok r) : r.length ≤ t.length := by
  unfold Filter.combine at h
  obtain ⟨⟨y, w⟩, _, h⟩ := bind_ok h
  rw [mapM_len h, List.length_zip]
  exact min_le_left _ _

theorem filterKind_len {fuel : ℕ} {lib : Filter.FilterLib K} {cfg : Filter.FilterCfg K} {tm : K} {m : Filter.CoprModes K}
    {kind : Filter.Kind} {n : ℕ} (ht : m.t.length ≤ n) (hg : (m.get kind).1.length ≤ n) {b : Filter.Best K}
    (h : Filter.filterKind fuel lib cfg tm m kind = some (.ok b)) : b.best.length ≤ n := by
  unfold Filter.filterKind at h
  cases hm : Filter.makeFilter lib cfg tm m kind with
  | error e => rw [hm] at h; simp at h
  | ok q =>
    obtain ⟨d, o⟩ := q
    rw [hm] at h
    have hd : d.length ≤ n ∧ ∀ x, o = some x → x.t = m.t := by
      unfold Filter.makeFilter at hm
      obtain ⟨d', h1, hm⟩ := bind_ok hm
      have hd' : d'.length ≤ n := by
        unfold Filter.original at h1
        rw [npZip_len h1]
        exact hg
      obtain ⟨req, _, hm⟩ := bind_ok hm
      split at hm
      · cases hm
        exact ⟨hd', by simp⟩
      · obtain ⟨q, _, hm⟩ := bind_ok hm
        dsimp only at hm
        split at hm
        · obtain ⟨_, _, hm⟩ := bind_ok hm
          obtain ⟨f, _, hm⟩ := bind_ok hm
          cases hm
          exact ⟨hd', by rintro x ⟨rfl⟩; rfl⟩
        · obtain ⟨f, _, hm⟩ := bind_ok hm
          cases hm
          exact ⟨hd', by rintro x ⟨rfl⟩; rfl⟩
    obtain ⟨hd, ho⟩ := hd
    cases o with
    | none =>
      dsimp only at h
      cases h
      exact hd
    | some o =>
      dsimp only at h
      split at h
      · simp only [Option.some.injEq] at h
        obtain ⟨_, _, h⟩ := bind_ok h
        cases h
        exact hd
      · cases ha : Filter.applyFilter fuel lib cfg o with
        | none => rw [ha] at h; simp at h
        | some r =>
          rw [ha] at h
          cases r with
          | error e => simp [bind, Except.bind] at h
          | ok f =>
            cases h
            show f.length ≤ n
            unfold Filter.applyFilter at ha
            cases hs : Filter.segments fuel lib cfg o with
            | none => rw [hs] at ha; simp at ha
            | some s =>
              rw [hs] at ha
              simp only [Option.map_some, Option.some.injEq] at ha
              obtain ⟨segs, _, ha⟩ := bind_ok ha
              have := combine_len ha
              rw [ho o rfl] at this
              exact this.trans ht

theorem checkAndFilter_len {fuel : ℕ} {lib : Filter.FilterLib K} {cfg : Filter.FilterCfg K} {tm : K} {m : Filter.CoprModes K}
    {n : ℕ} (ht : m.t.length ≤ n) (ha : m.amp22.length ≤ n) (hw : m.omega22.length ≤ n) {f : Filter.FilterOut K}
    (h : Filter.checkAndFilter fuel lib cfg tm m = some (.ok f)) : f.amp.best.length ≤ n ∧ f.omega.best.length ≤ n := by
  unfold Filter.checkAndFilter at h
  cases h1 : Filter.filterKind fuel lib cfg tm m .amp with
  | none => rw [h1] at h; simp at h
  | some r =>
    rw [h1] at h
    cases r with
    | error e => simp at h
    | ok a =>
      dsimp only at h
      cases h2 : Filter.filterKind fuel lib cfg tm m .omega with
      | none => rw [h2] at h; simp at h
      | some r =>
        rw [h2] at h
        cases r with
        | error e => simp at h
        | ok w =>
          dsimp only at h
          simp only [Option.some.injEq] at h
          obtain ⟨p, _, h⟩ := bind_ok h
          cases h
          exact ⟨filterKind_len (kind := .amp) ht ha h1, filterKind_len (kind := .omega) ht hw h2⟩

/-- After the filter. -/
theorem filterStage_short {fuel : ℕ} {lib : Libs K C} {a : Call K C} {nd : DataV K C} {an : Analysis K} {w w' : Wave K}
    {b : Bool} {x : Option (Extra K)} (hs : Sampled lib.wave w.t.length nd)
    (hw : w.amp.length ≤ w.t.length ∧ w.omega.length ≤ w.t.length)
    (h : filterStage fuel lib a nd an w = some (.ok (w', b, x))) :
    w'.t = w.t ∧ w'.amp.length ≤ w.t.length ∧ w'.omega.length ≤ w.t.length := by
  cases hp : a.precessing.truth with
  | false =>
    rw [filterStage_off fuel lib a nd an w hp] at h
    cases h
    exact ⟨rfl, hw⟩
  | true =>
    obtain ⟨kw, cfg, m, f, _, _, hm, hf, rfl, _, _⟩ := filterStage_on hp h
    refine ⟨rfl, ?_⟩
    unfold coprModes at hm
    obtain ⟨x1, h1, hm⟩ := bind_ok hm
    obtain ⟨x2, h2, hm⟩ := bind_ok hm
    obtain ⟨x3, h3, hm⟩ := bind_ok hm
    obtain ⟨x4, h4, hm⟩ := bind_ok hm
    obtain ⟨x5, h5, hm⟩ := bind_ok hm
    obtain ⟨x6, h6, hm⟩ := bind_ok hm
    cases hm
    have mode : ∀ key ∈ ["amplm", "phaselm", "omegalm"], ∀ m l, modeOf nd key m = .ok l → l.length ≤ w.t.length := by
      intro key hk m l hl
      unfold modeOf at hl
      obtain ⟨d, hd, hl⟩ := bind_ok hl
      exact hs.real key hk _ (getR_ok hd) _ rfl _ (mem_of_get? (getItem_ok hl))
    exact checkAndFilter_len (le_refl _) (mode "amplm" (by simp) _ _ h1) (mode "omegalm" (by simp) _ _ h3) hf

theorem pyBound_mono {n m : ℕ} (h : n ≤ m) (i : ℤ) : pyBound n i ≤ pyBound m i := by
  unfold pyBound
  split <;> omega

theorem slice_len {α β : Type} {x : List α} {y : List β} (h : x.length ≤ y.length) (a : ℕ) (b : ℤ) :
    (pySlice x a b).length ≤ (pySlice y a b).length := by
  unfold pySlice
  have h1 := pyBound_mono h b
  have h2 : ∀ n : ℕ, pyBound n (a : ℤ) = min a n := by
    intro n
    unfold pyBound
    split <;> omega
  rw [h2, h2]
  simp only [List.length_drop, List.length_take]
  omega

/-- After the selection of a segment. -/
theorem selectWave_short {pi : K} {fit : List K → List K → Py (List K)} {orbits : Option K} {domain : Domain} {refs : List K}
    {w w' : Wave K} (hw : w.amp.length ≤ w.t.length ∧ w.omega.length ≤ w.t.length)
    (h : selectWave pi fit orbits domain refs w = .ok w') : w'.amp.length ≤ w'.t.length ∧ w'.omega.length ≤ w'.t.length := by
  unfold selectWave at h
  cases orbits with
  | none => cases h; exact hw
  | some n =>
    dsimp only at h
    split at h
    · cases h; exact hw
    · obtain ⟨pN, _, h⟩ := bind_ok h
      obtain ⟨p0, _, h⟩ := bind_ok h
      split at h
      · unfold useSegment at h
        obtain ⟨⟨tl, tr⟩, _, h⟩ := bind_ok h
        obtain ⟨pl, _, h⟩ := bind_ok h
        obtain ⟨pr, _, h⟩ := bind_ok h
        obtain ⟨⟨s, e⟩, _, h⟩ := bind_ok h
        cases h
        exact ⟨slice_len hw.1 s e, slice_len hw.2 s e⟩
      · cases h; exact hw

theorem residualData_short {lib : WaveLib K C} {tol : K} {eval : InterpCall → List K → List K → K → Py K} {kw : SplineKwargs}
    {pr : Bool} {v : DataV K C} {tm : K} {w : Wave K} {r : Residual K}
    (h : residualData lib tol eval kw pr v tm w = .ok (some r)) :
    r.resAmp.length = w.amp.length ∧ r.resOmega.length = w.omega.length := by
  unfold residualData at h
  split at h
  · obtain ⟨tZ, _, h⟩ := bind_ok h
    obtain ⟨_, _, h⟩ := bind_ok h
    obtain ⟨⟨a, p, o⟩, _, h⟩ := bind_ok h
    obtain ⟨d, _, h⟩ := bind_ok h
    obtain ⟨tot, _, h⟩ := bind_ok h
    obtain ⟨r', hr, h⟩ := bind_ok h
    cases h
    unfold residualCore at hr
    obtain ⟨⟨tm, _⟩, _, hr⟩ := bind_ok hr
    obtain ⟨s0, _, hr⟩ := bind_ok hr
    obtain ⟨t0, _, hr⟩ := bind_ok hr
    split at hr
    · cases hr
    · obtain ⟨sN, _, hr⟩ := bind_ok hr
      split at hr
      · cases hr
      · obtain ⟨x, _, hr⟩ := bind_ok hr
        obtain ⟨ra, h1, hr⟩ := bind_ok hr
        obtain ⟨y, _, hr⟩ := bind_ok hr
        obtain ⟨ro, h2, hr⟩ := bind_ok hr
        cases hr
        exact ⟨npZip_len h1, npZip_len h2⟩
  · cases h

/-- The data in which extrema are searched. -/
theorem dataForExtrema_short {nd : DataV K C} {an : Analysis K} {w : Wave K} {res : Option (Residual K)} {n : ℕ}
    (hw : w.amp.length ≤ n ∧ w.omega.length ≤ n)
    (hr : ∀ r, res = some r → r.resAmp.length = w.amp.length ∧ r.resOmega.length = w.omega.length) {c : MethodClass}
    {d : List K} (h : dataForExtrema c (seriesOf nd an w res) = .ok d) : d.length ≤ n := by
  unfold dataForExtrema seriesOf at h
  cases c with
  | amplitude => cases h; exact hw.1
  | frequency => cases h; exact hw.2
  | frequencyFits => cases h; exact hw.2
  | amplitudeFits => cases h; simpa using hw.1
  | residualAmplitude =>
    obtain ⟨_, _, h⟩ := bind_ok h
    cases res with
    | none => cases h
    | some r =>
      cases h
      show r.resAmp.length ≤ n
      rw [(hr r rfl).1]; exact hw.1
  | residualFrequency =>
    obtain ⟨_, _, h⟩ := bind_ok h
    cases res with
    | none => cases h
    | some r =>
      cases h
      show r.resOmega.length ≤ n
      rw [(hr r rfl).2]; exact hw.2

end

end GwEcc
