import Verif.Spec.Ringdown
import Verif.Lemmas.PhaseRun

/-! The preparation of a waveform that is cut off some samples after the merger. -/

set_option linter.unusedSectionVars false

namespace GwEcc

namespace Longer

open Spec Turned

section lists
variable {K : Type}

theorem argmin_take [LinearOrder K] {l : List K} {i n : ℕ} (h : argmin l = .ok i) (hi : i < n) : argmin (l.take n) = .ok i := by
  obtain ⟨h1, h2, h3⟩ := argmin_spec h
  have hlt : i < (l.take n).length := by rw [List.length_take]; omega
  cases hm : argmin (l.take n) with
  | error e =>
    cases hl : l.take n with
    | nil => rw [hl] at hlt; simp at hlt
    | cons a s => rw [hl] at hm; cases hm
  | ok j =>
    obtain ⟨g1, g2, g3⟩ := argmin_spec hm
    have hj : j < l.length := by rw [List.length_take] at g1; omega
    have e1 := g2 i hlt
    have e2 := h2 j hj
    simp only [List.getElem_take] at e1
    rcases lt_trichotomy i j with hij | hij | hij
    · have := g3 i hlt hij
      simp only [List.getElem_take] at this
      exact absurd this (not_lt.mpr e2)
    · rw [hij]
    · exact absurd (h3 j hj hij) (not_lt.mpr e1)

theorem argmax_take [LinearOrder K] {l : List K} {i n : ℕ} (h : argmax l = .ok i) (hi : i < n) : argmax (l.take n) = .ok i := by
  obtain ⟨h1, h2, h3⟩ := argmax_spec h
  have hlt : i < (l.take n).length := by rw [List.length_take]; omega
  cases hm : argmax (l.take n) with
  | error e =>
    cases hl : l.take n with
    | nil => rw [hl] at hlt; simp at hlt
    | cons a s => rw [hl] at hm; cases hm
  | ok j =>
    obtain ⟨g1, g2, g3⟩ := argmax_spec hm
    have hj : j < l.length := by rw [List.length_take] at g1; omega
    have e1 := g2 i hlt
    have e2 := h2 j hj
    simp only [List.getElem_take] at e1
    rcases lt_trichotomy i j with hij | hij | hij
    · have := g3 i hlt hij
      simp only [List.getElem_take] at this
      exact absurd this (not_lt.mpr e2)
    · rw [hij]
    · exact absurd (h3 j hj hij) (not_lt.mpr e1)

theorem argmax_le [LinearOrder K] {l : List K} {i j : ℕ} {x : K} (h : argmax l = .ok i) (hj : l[j]? = some x)
    (hx : ∀ y ∈ l, y ≤ x) : i ≤ j := by
  obtain ⟨h1, h2, h3⟩ := argmax_spec h
  by_contra hij
  obtain ⟨hj', rfl⟩ := List.getElem?_eq_some_iff.mp hj
  exact absurd (h3 j hj' (by omega)) (not_lt.mpr (hx _ (List.getElem_mem h1)))

theorem pyGet_take (l : List K) {i n : ℕ} (h : i < n) : pyGet (l.take n) i = pyGet l i := by
  unfold pyGet
  rw [List.getElem?_take, if_pos h]

theorem pyGet_of_take {l l' : List K} {i n : ℕ} (h : i < n) (e : l'.take n = l.take n) : pyGet l' i = pyGet l i := by
  rw [← pyGet_take l h, ← pyGet_take l' h, e]

end lists

section
variable {K C : Type} [Field K] [LinearOrder K] [IsStrictOrderedRing K]

theorem peakTime_take {t T : List K} {i n : ℕ} {x : K} (hn : 5 ≤ n) (hL : n ≤ t.length) (hT : T.length = t.length)
    (hi : i + 2 < n) (hx : T[i]? = some x) (hmax : ∀ y ∈ T, y ≤ x) : peakTime (t.take n) (T.take n) = peakTime t T := by
  unfold peakTime
  cases hm : argmax T with
  | error e =>
    cases T with
    | nil => simp at hx
    | cons a s => cases hm
  | ok m =>
    have hmi := argmax_le hm hx hmax
    rw [argmax_take hm (n := n) (by omega)]
    simp only [ok_bind]
    have l1 : (t.take n).length = n := by rw [List.length_take]; omega
    have l2 : (T.take n).length = n := by rw [List.length_take]; omega
    have e1 : max 2 (min ((t.take n).length - 3) m) = max 2 (min (t.length - 3) m) := by rw [l1]; omega
    rw [e1, if_neg (by rw [l1, l2]; omega), if_neg (by rw [hT]; omega)]
    have hlt : max 2 (min (t.length - 3) m) + 3 ≤ n := by omega
    generalize max 2 (min (t.length - 3) m) = j at hlt
    have e2 : (t.take n).getD j 0 = t.getD j 0 := by
      rw [List.getD_eq_getElem?_getD, List.getD_eq_getElem?_getD, List.getElem?_take, if_pos (by omega)]
    have e3 : ∀ l : List K, (l.take n).take (j + 3) = l.take (j + 3) := by
      intro l
      rw [List.take_take, min_eq_left hlt]
    rw [e2, e3, e3]

theorem timeDeriv4_take {y : List K} {n : ℕ} (hn : 5 ≤ n) (hL : n ≤ y.length) (dt : K) :
    ∃ w w', timeDeriv4 y dt = .ok w ∧ timeDeriv4 (y.take n) dt = .ok w' ∧ w.length = y.length ∧ w'.length = n ∧
      w'.take (n - 2) = w.take (n - 2) := by
  have l1 : (y.take n).length = n := by rw [List.length_take]; omega
  unfold timeDeriv4
  rw [l1, if_neg (by omega), if_neg (by omega)]
  refine ⟨_, _, rfl, rfl, by simp, by simp, ?_⟩
  apply List.ext_getElem?
  intro i
  rw [List.getElem?_take, List.getElem?_take]
  by_cases hi : i < n - 2
  swap
  · rw [if_neg hi, if_neg hi]
  rw [if_pos hi, if_pos hi, List.getElem?_map, List.getElem?_map, List.getElem?_range (by omega), List.getElem?_range (by omega)]
  simp only [Option.map_some]
  congr 1
  have g : ∀ j, j < n → (y.take n).getD j 0 = y.getD j 0 := by
    intro j hj
    rw [List.getD_eq_getElem?_getD, List.getD_eq_getElem?_getD, List.getElem?_take, if_pos hj]
  rw [if_neg (show ¬ i = n - 1 by omega), if_neg (show ¬ i = n - 2 by omega), if_neg (show ¬ i = y.length - 1 by omega),
    if_neg (show ¬ i = y.length - 2 by omega)]
  congr 1
  split
  · rw [g _ (by omega), g _ (by omega), g _ (by omega), g _ (by omega), g _ (by omega)]
  split
  · rw [g _ (by omega), g _ (by omega), g _ (by omega), g _ (by omega), g _ (by omega)]
  · rw [g _ (by omega), g _ (by omega), g _ (by omega), g _ (by omega)]

/-- The first `n` of `L` samples. -/
def TakeL (n L : ℕ) (l l' : List K) : Prop := l.length = L ∧ l' = l.take n

/-- The same up to the last two of `n` samples. -/
def OmL (n L : ℕ) (l l' : List K) : Prop := l.length = L ∧ l'.length = n ∧ l'.take (n - 2) = l.take (n - 2)

theorem TakeL.om {n L : ℕ} (hL : n ≤ L) {l l' : List K} (h : TakeL n L l l') : OmL n L l l' := by
  obtain ⟨h1, rfl⟩ := h
  refine ⟨h1, by rw [List.length_take]; omega, ?_⟩
  rw [List.take_take, min_eq_left (by omega)]

/-- What is given. -/
def PVt (lib : WaveLib K C) (n L : ℕ) (k : String) (e e' : Entry K C) : Prop :=
  if k = "t" then ∃ t, e = .arr t ∧ e' = .arr (t.take n) ∧ t.length = L
  else if k = "amplm" ∨ k = "phaselm" ∨ k = "omegalm" then ∃ d d', e = .modesR d ∧ e' = .modesR d' ∧ FRel (fun _ => TakeL n L) d d'
  else if k = "hlm" then ∃ d d', e = .modesC d ∧ e' = .modesC d' ∧
    FRel (fun _ l l' => l' = l.take n ∧ (lib.abs l).length = L ∧ (lib.phase l).length = L) d d'
  else e' = e

/-- What comes out. -/
def PNt (n L : ℕ) (k : String) (e e' : Entry K C) : Prop :=
  if k = "t" then ∃ t, e = .arr t ∧ e' = .arr (t.take n) ∧ t.length = L
  else if k = "amplm" ∨ k = "phaselm" then ∃ d d', e = .modesR d ∧ e' = .modesR d' ∧ FRel (fun _ => TakeL n L) d d'
  else if k = "omegalm" then ∃ d d', e = .modesR d ∧ e' = .modesR d' ∧ FRel (fun _ => OmL n L) d d'
  else e' = e

theorem PNt_rfl {n L : ℕ} {k : String} (hk : k ∉ ["t", "amplm", "phaselm", "omegalm"]) (e : Entry K C) : PNt n L k e e := by
  simp only [List.mem_cons, List.not_mem_nil, or_false, not_or] at hk
  unfold PNt
  rw [if_neg hk.1, if_neg (by tauto), if_neg hk.2.2.2]

theorem initial {lib : WaveLib K C} {v : DataV K C} {L : ℕ} (hv : Regular lib v L) (n : ℕ) :
    DRel (PVt lib n L) v (firstSamples n v) := by
  have h := DRel.of_mapE (fun k (x : Entry K C) => if k ∈ ["t", "hlm", "amplm", "phaselm", "omegalm"] then firstOf n x else x) v
  refine h.mono fun k a b hk hab => ?_
  subst hab
  unfold PVt
  by_cases h1 : k = "t"
  · subst h1
    obtain ⟨t, rfl, ht⟩ := hv.times _ hk
    rw [if_pos rfl]
    exact ⟨t, rfl, rfl, ht⟩
  rw [if_neg h1]
  by_cases h2 : k = "amplm" ∨ k = "phaselm" ∨ k = "omegalm"
  · obtain ⟨d, rfl, hd⟩ := hv.real k (by rcases h2 with rfl | rfl | rfl <;> simp) _ hk
    rw [if_pos h2, if_pos (by rcases h2 with rfl | rfl | rfl <;> simp)]
    refine ⟨d, _, rfl, rfl, ?_⟩
    exact FRel.mapE (P := fun _ => TakeL n L) (fun _ l => l.take n) d fun m l hm => ⟨hd _ hm, rfl⟩
  rw [if_neg h2]
  by_cases h3 : k = "hlm"
  · subst h3
    obtain ⟨d, rfl, hd⟩ := hv.complex _ hk
    rw [if_pos rfl, if_pos (by simp)]
    refine ⟨d, _, rfl, rfl, ?_⟩
    exact FRel.mapE (P := fun _ l l' => l' = l.take n ∧ (lib.abs l).length = L ∧ (lib.phase l).length = L)
      (fun _ l => l.take n) d fun m l hm => ⟨rfl, hd _ hm⟩
  rw [if_neg h3, if_neg]
  simp only [List.mem_cons, List.not_mem_nil, or_false]
  tauto

theorem getR_takeV {lib : WaveLib K C} {n L : ℕ} {v v' : DataV K C} (h : DRel (PVt lib n L) v v') {key : String}
    (hk : key = "amplm" ∨ key = "phaselm" ∨ key = "omegalm") : PyRel (FRel (fun _ => TakeL n L)) (getR v key) (getR v' key) := by
  unfold getR
  refine PyRel.bind (h.getItem key) fun e e' he => ?_
  have : ∃ d d', e = .modesR d ∧ e' = .modesR d' ∧ FRel (fun _ => TakeL n L) d d' := by
    unfold PVt at he
    rw [if_neg (by rcases hk with rfl | rfl | rfl <;> decide), if_pos hk] at he
    exact he
  obtain ⟨d, d', rfl, rfl, hd⟩ := this
  exact .ok hd

theorem PVt_eq {lib : WaveLib K C} {n L : ℕ} {key : String} (hk : key ∉ ["t", "hlm", "amplm", "phaselm", "omegalm"]) :
    ∀ e e', PVt lib n L key e e' → e' = e := by
  intro e e' h
  simp only [List.mem_cons, List.not_mem_nil, or_false, not_or] at hk
  unfold PVt at h
  rw [if_neg hk.1, if_neg (by tauto), if_neg hk.2.1] at h
  exact h

/-- Modes of amplitudes or phases, from the dictionary. -/
theorem realModes_take {lib : WaveLib K C} {n L : ℕ} {v v' : DataV K C} (h : DRel (PVt lib n L) v v') {name : String}
    (hname : name = "amplm" ∨ name = "phaselm") {conv : List C → List K} (hc : ∀ l, conv (l.take n) = (conv l).take n)
    (hlen : ∀ l, (lib.abs l).length = L → (lib.phase l).length = L → (conv l).length = L) :
    PyRel (FRel (fun _ => TakeL n L)) (realModes conv name "" v) (realModes conv name "" v') := by
  unfold realModes
  rw [h.has, h.has]
  simp only [String.append_empty]
  refine PyRel.ite Iff.rfl (fun _ _ => ?_) fun _ _ => ?_
  · refine PyRel.bind (getR_takeV h (by rcases hname with rfl | rfl <;> simp)) fun d d' hd => ?_
    exact .ok (hd.update .nil')
  refine PyRel.ite Iff.rfl (fun _ _ => ?_) fun _ _ => ?_
  · refine PyRel.bind (R := FRel (fun _ l l' => l' = l.take n ∧ (lib.abs l).length = L ∧ (lib.phase l).length = L)) ?_
      fun d d' hd => ?_
    · unfold getC
      refine PyRel.bind (h.getItem "hlm") fun e e' he => ?_
      unfold PVt at he
      rw [if_neg (by decide), if_neg (by decide), if_pos rfl] at he
      obtain ⟨d, d', rfl, rfl, hd⟩ := he
      exact .ok hd
    · exact .ok (foldl_rel (T := TakeL n L) conv (fun l l' ⟨h1, h2, h3⟩ => ⟨hlen l h2 h3, by rw [h1, hc]⟩) hd .nil')
  · exact .error _

theorem realModes_zeroecc {lib : WaveLib K C} {n L : ℕ} {v v' : DataV K C} (h : DRel (PVt lib n L) v v') {name : String}
    (hname : name = "amplm" ∨ name = "phaselm") (conv : List C → List K) :
    PyRel (fun a b => b = a) (realModes conv name "_zeroecc" v) (realModes conv name "_zeroecc" v') := by
  unfold realModes
  rw [h.has, h.has]
  refine PyRel.ite Iff.rfl (fun _ _ => ?_) fun _ _ => ?_
  · refine PyRel.bind (getR_eq h (PVt_eq (by rcases hname with rfl | rfl <;> decide))) fun d d' hd => ?_
    subst hd
    exact .ok rfl
  refine PyRel.ite Iff.rfl (fun _ _ => ?_) fun _ _ => ?_
  · refine PyRel.bind (R := fun a b => b = a) ?_ fun d d' hd => ?_
    · unfold getC
      refine PyRel.bind (h.getItem _) fun e e' he => ?_
      rw [PVt_eq (by decide) _ _ he]
      exact PyRel.refl (R := fun a b => b = a) (fun _ => rfl) _
    · subst hd
      exact .ok rfl
  · exact PyRel.refl (R := fun a b => b = a) (fun _ => rfl) _

theorem omegaModes_take {t : List K} {n L : ℕ} (hn : 5 ≤ n) (hL : n ≤ L) {p p' : Dict LM (List K)}
    (hp : FRel (fun _ => TakeL n L) p p') :
    PyRel (FRel (fun _ => OmL n L)) (omegaModes t p) (omegaModes (t.take n) p') := by
  unfold omegaModes
  rw [pyGet_take t (by omega), pyGet_take t (by omega)]
  have key : ∀ (e e' : Dict LM (List K)), FRel (fun _ => TakeL n L) e e' → ∀ acc acc' : Dict LM (List K),
      FRel (fun _ => OmL n L) acc acc' →
      PyRel (FRel (fun _ => OmL n L))
        (e.foldlM (fun acc p => do
          let t1 ← pyGet t 1
          let t0 ← pyGet t 0
          let w ← timeDeriv4 p.2 (t1 - t0)
          pure (acc.set p.1 w)) acc)
        (e'.foldlM (fun acc p => do
          let t1 ← pyGet t 1
          let t0 ← pyGet t 0
          let w ← timeDeriv4 p.2 (t1 - t0)
          pure (acc.set p.1 w)) acc') := by
    intro e e' he
    induction he with
    | nil => exact fun acc acc' h => .ok h
    | @cons p q e e' h1 h2 ih =>
      intro acc acc' h
      rw [List.foldlM_cons, List.foldlM_cons]
      refine PyRel.bind (R := FRel (fun _ => OmL n L)) ?_ fun a b hab => ih a b hab
      refine PyRel.bind (PyRel.same _) fun t1 _ e1 => ?_
      subst e1
      refine PyRel.bind (PyRel.same _) fun t0 _ e0 => ?_
      subst e0
      obtain ⟨hk, hl, hq⟩ := h1
      obtain ⟨w, w', w1, w2, w3, w4, w5⟩ := timeDeriv4_take hn (hl ▸ hL) (t1 - t0) (y := p.2)
      rw [hk, hq, w1, w2]
      exact .ok (h.set ⟨w3.trans hl, w4, w5⟩)
  refine key p p' hp p p' ?_
  exact List.Forall₂.imp (fun a b h => ⟨h.1, h.2.om hL⟩) hp

theorem withZeroecc_take {n L : ℕ} {name : String} (hname : name = "amplm" ∨ name = "phaselm") {a a' : Dict LM (List K)}
    (h : FRel (fun _ => TakeL n L) a a') (z : Dict LM (List K)) :
    FRel (PNt (K := K) (C := C) n L) (withZeroecc name a z) (withZeroecc name a' z) := by
  unfold withZeroecc
  refine .cons' ?_ ?_
  · unfold PNt
    rw [if_neg (by rcases hname with rfl | rfl <;> decide), if_pos hname]
    exact ⟨a, a', rfl, rfl, h⟩
  · split
    · exact .nil'
    · refine .cons' (PNt_rfl ?_ _) .nil'
      rcases hname with rfl | rfl <;> decide

theorem ampPhaseOmega_take {lib : WaveLib K C} (hl : SampleBySample lib) {n L : ℕ} (hn : 5 ≤ n) (hL : n ≤ L) {v v' : DataV K C}
    (h : DRel (PVt lib n L) v v') : PyRel (FRel (PNt n L)) (ampPhaseOmega lib v) (ampPhaseOmega lib v') := by
  unfold ampPhaseOmega realModesDict
  simp only [bind_assoc]
  refine PyRel.bind (realModes_take h (.inl rfl) (hl.abs n) fun l h1 _ => h1) fun a a' ha => ?_
  refine PyRel.bind (realModes_zeroecc h (.inl rfl) lib.abs) fun z z' hz => ?_
  subst hz
  simp only [pure_eq_ok, ok_bind]
  refine PyRel.bind (realModes_take h (.inr rfl) (hl.phase n) fun l _ h1 => h1) fun p p' hp => ?_
  refine PyRel.bind (realModes_zeroecc h (.inr rfl) lib.phase) fun q q' hq => ?_
  subst hq
  have hD : FRel (PNt (K := K) (C := C) n L) (apDict a z' p q') (apDict a' z' p' q') := by
    unfold apDict
    exact (withZeroecc_take (.inr rfl) hp q').update ((withZeroecc_take (.inl rfl) ha z').update .nil')
  have e1 : Dict.update (Dict.update [] (withZeroecc "amplm" a z')) (withZeroecc "phaselm" p q')
      = (apDict a z' p q' : DataV K C) := rfl
  have e2 : Dict.update (Dict.update [] (withZeroecc "amplm" a' z')) (withZeroecc "phaselm" p' q')
      = (apDict a' z' p' q' : DataV K C) := rfl
  simp only [e1, e2]
  have gp : ∀ a p, getR (apDict a z' p q' : DataV K C) "phaselm" = .ok p := by
    intro a p; apply getR_of; rw [apDict_get]; simp
  refine PyRel.bind (R := PNt n L "omegalm") ?_ fun w w' hw => ?_
  · rw [h.has]
    refine PyRel.ite Iff.rfl (fun _ _ => ?_) fun _ _ => ?_
    · refine (h.getItem _).mono fun x y hxy => ?_
      unfold PVt at hxy
      rw [if_neg (by decide), if_pos (by simp)] at hxy
      unfold PNt
      rw [if_neg (by decide), if_neg (by decide), if_pos rfl]
      obtain ⟨d, d', e1, e2, hd⟩ := hxy
      exact ⟨d, d', e1, e2, List.Forall₂.imp (fun a b h => ⟨h.1, h.2.om hL⟩) hd⟩
    · refine PyRel.bind (R := fun t t' => t' = t.take n ∧ t.length = L) ?_ fun t t' ht => ?_
      · unfold getArr
        refine PyRel.bind (h.getItem _) fun x y hxy => ?_
        unfold PVt at hxy
        rw [if_pos rfl] at hxy
        obtain ⟨t, rfl, rfl, ht⟩ := hxy
        exact .ok ⟨rfl, ht⟩
      · obtain ⟨rfl, _⟩ := ht
        rw [gp, gp]
        simp only [ok_bind]
        refine PyRel.bind (omegaModes_take hn hL hp) fun w w' hw => ?_
        refine .ok ?_
        unfold PNt
        rw [if_neg (by decide), if_neg (by decide), if_pos rfl]
        exact ⟨w, w', rfl, rfl, hw⟩
  · have hE := hD.set hw
    have gq : ∀ a p w, ((apDict a z' p q' : DataV K C).set "omegalm" w).has "phaselm_zeroecc" = true →
        getR ((apDict a z' p q' : DataV K C).set "omegalm" w) "phaselm_zeroecc" = .ok q' := by
      intro a p w hc
      unfold Dict.has at hc
      apply getR_of
      rw [Dict.get?_set, if_neg (by decide), apDict_get] at hc ⊢
      cases hqe : q'.isEmpty <;> simp_all
    rw [h.has, h.has]
    refine PyRel.ite Iff.rfl (fun _ _ => ?_) fun _ _ => ?_
    · refine PyRel.bind ((h.getItem _).mono fun a b hab => PVt_eq (by decide) _ _ hab) fun x y hxy => ?_
      subst hxy
      exact .ok (hE.set (PNt_rfl (by decide) _))
    rw [hE.toD.has]
    refine PyRel.ite Iff.rfl (fun hc _ => ?_) fun _ _ => .ok hE
    refine PyRel.bind (getArr_eq h (PVt_eq (by decide))) fun t t' ht => ?_
    subst ht
    rw [Bool.and_eq_true] at hc
    rw [gq a p w hc.1, gq a' p' w' (by rw [hE.toD.has]; exact hc.1)]
    simp only [ok_bind]
    refine PyRel.bind (PyRel.same _) fun w _ hw => ?_
    subst hw
    exact .ok (hE.set (PNt_rfl (by decide) _))

theorem newData_take {lib : WaveLib K C} (hl : SampleBySample lib) {n L : ℕ} (hn : 5 ≤ n) (hL : n ≤ L) {v v' : DataV K C}
    (h : DRel (PVt lib n L) v v') : PyRel (FRel (PNt n L)) (newData lib v) (newData lib v') := by
  unfold newData
  rw [h.has, h.has]
  refine PyRel.ite Iff.rfl (fun _ _ => ?_) fun _ _ => .error _
  refine PyRel.bind (R := PNt n L "t") ((h.getItem _).mono fun a b hab => ?_) fun t t' ht => ?_
  · unfold PVt at hab
    unfold PNt
    rw [if_pos rfl] at hab ⊢
    exact hab
  have h0 : FRel (PNt n L) ([("t", t)] : DataV K C) [("t", t')] := .cons' ht .nil'
  refine PyRel.bind (R := FRel (PNt n L)) ?_ fun d d' hd => ?_
  · refine PyRel.ite Iff.rfl (fun _ _ => ?_) fun _ _ => .ok h0
    refine PyRel.bind ((h.getItem _).mono fun a b hab => PVt_eq (by decide) _ _ hab) fun x y hxy => ?_
    subst hxy
    exact .ok (h0.set (PNt_rfl (by decide) _))
  · refine PyRel.bind (ampPhaseOmega_take hl hn hL h) fun x y hxy => ?_
    exact .ok (hxy.update hd)

end

end Longer

end GwEcc
