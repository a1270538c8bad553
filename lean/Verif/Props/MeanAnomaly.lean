import Verif.Lemmas.MeanAnomaly
import Verif.Lemmas.MeasureDemo

/-!
# C15 Mean anomaly
-/

set_option linter.unusedSectionVars false

namespace GwEcc

open Spec

variable {K : Type} [Field K] [LinearOrder K] [IsStrictOrderedRing K] [FloorRing K]

/-- The value the specification gives at a time `x` between the pericenters of `l`. -/
def Spec.IsMeanAnomaly (pi : K) (l : List K) (x v : K) : Prop :=
  (∀ a b, Orbit l x a b → v = 2 * pi * ((x - a) / (b - a))) ∧ (l.getLast? = some x → v = 0)

theorem anomaly_value (pi : K) (hpi : 0 < pi) (l : List K) (hs : l.Pairwise (· < ·)) (x : K) (hx : Within l x) :
    ∃ v, npInterp x (l.zip ((List.range l.length).map (fun i : ℕ => (i : K) * 2 * pi))) = .ok v ∧
      IsMeanAnomaly pi l x (pyMod v (2 * pi)) ∧ 0 ≤ pyMod v (2 * pi) ∧ pyMod v (2 * pi) < 2 * pi := by
  have hn : l.zip ((List.range l.length).map (fun i : ℕ => (i : K) * 2 * pi)) = anoNodes pi l 0 := by
    unfold anoNodes; simp
  rw [hn]
  have orb : ∀ a b, Orbit l x a b → ∃ i : ℕ, npInterp x (anoNodes pi l 0)
      = .ok ((i : K) * (2 * pi) + 2 * pi * ((x - a) / (b - a))) ∧ 0 ≤ 2 * pi * ((x - a) / (b - a)) ∧
        2 * pi * ((x - a) / (b - a)) < 2 * pi := by
    rintro a b ⟨ha, hb, i, hi, hj⟩
    have hab : 0 < b - a := sub_pos.mpr (lt_of_le_of_lt ha hb)
    refine ⟨i, ?_, ?_, ?_⟩
    · rw [npInterp_orbit pi l 0 x a b i hs hi hj ha hb]
      congr 1; ring
    · have := div_nonneg (sub_nonneg.mpr ha) hab.le
      positivity
    · have : (x - a) / (b - a) < 1 := by rw [div_lt_one hab]; linarith
      nlinarith
  have lst : l.getLast? = some x → ∃ i : ℕ, npInterp x (anoNodes pi l 0) = .ok ((i : K) * (2 * pi) + 0) := by
    intro h
    refine ⟨l.length - 1, ?_⟩
    rw [npInterp_last pi l 0 x hs h]
    congr 1; ring
  rcases orbit_or_last l x hx with ⟨a, b, hab⟩ | hl
  · obtain ⟨i, hv, h0, h1⟩ := orb a b hab
    refine ⟨_, hv, ⟨?_, ?_⟩, ?_, ?_⟩
    · intro a' b' h'
      obtain ⟨j, hv', h0', h1'⟩ := orb a' b' h'
      rw [hv] at hv'
      injection hv' with hv'
      rw [hv', pyMod_add_mul j _ _ h0' h1']
    · intro hl
      obtain ⟨j, hv'⟩ := lst hl
      rw [hv] at hv'
      injection hv' with hv'
      rw [hv', pyMod_add_mul j _ _ (le_refl _) (by positivity)]
    · rw [pyMod_add_mul i _ _ h0 h1]; exact h0
    · rw [pyMod_add_mul i _ _ h0 h1]; exact h1
  · obtain ⟨i, hv⟩ := lst hl
    have hz : pyMod ((i : K) * (2 * pi) + 0) (2 * pi) = 0 := pyMod_add_mul i _ _ (le_refl _) (by positivity)
    refine ⟨_, hv, ⟨?_, fun _ => hz⟩, by rw [hz], by rw [hz]; positivity⟩
    intro a' b' h'
    obtain ⟨j, hv', h0', h1'⟩ := orb a' b' h'
    rw [hv] at hv'
    injection hv' with hv'
    rw [hv', pyMod_add_mul j _ _ h0' h1']

theorem mapM_py_map {α β γ : Type} {f : α → Py β} (g : β → γ) (P : α → γ → Prop) : ∀ l : List α,
    (∀ x ∈ l, ∃ v, f x = .ok v ∧ P x (g v)) → ∃ r, l.mapM f = .ok r ∧ List.Forall₂ P l (r.map g)
  | [], _ => ⟨[], rfl, List.Forall₂.nil⟩
  | a :: l, h => by
    obtain ⟨v, hv, hp⟩ := h a (by simp)
    obtain ⟨r, hr, hps⟩ := mapM_py_map g P l (fun x hx => h x (by simp [hx]))
    exact ⟨v :: r, by rw [List.mapM_cons, hv, ok_bind, hr, ok_bind]; rfl, List.Forall₂.cons hp hps⟩

/-- At times between the first and the last pericenter and between the first and the last apocenter the mean anomaly is
computed, one value per time and in order.  It is in [0, 2π); it is 2π times the fraction of the current orbit that has
elapsed; and it is 0 at the last pericenter. -/
theorem C15_mean_anomaly (e : Ext K) (o : Obj K) (p a : List ℕ) (m : Meas K) (hm : prepare e o p a = .ok m)
    (hpi : 0 < e.pi) (hs : m.tPeri.Pairwise (· < ·)) (ts : List K)
    (hin : ∀ x ∈ ts, Within m.tPeri x ∧ Within m.tApo x) :
    ∃ r, computeMeanAnomaly e m ts = .ok r ∧
      List.Forall₂ (fun x v => 0 ≤ v ∧ v < 2 * e.pi ∧
        (∀ c d, Orbit m.tPeri x c d → v = 2 * e.pi * ((x - c) / (d - c))) ∧
        (m.tPeri.getLast? = some x → v = 0)) ts r := by
  have hlim : checkInputLimits ts m.tmin m.tmax = .ok () :=
    (checkInputLimits_ok_iff _ _ _).mpr fun x hx => (prepare_window hm x).mpr (hin x hx)
  obtain ⟨r, hr, hp⟩ := mapM_py_map (f := fun x => npInterp x (m.tPeri.zip
      ((List.range m.tPeri.length).map (fun i : ℕ => (i : K) * 2 * e.pi)))) (fun v => pyMod v (2 * e.pi))
    (fun x v => 0 ≤ v ∧ v < 2 * e.pi ∧ (∀ c d, Orbit m.tPeri x c d → v = 2 * e.pi * ((x - c) / (d - c))) ∧
        (m.tPeri.getLast? = some x → v = 0)) ts (by
      intro x hx
      obtain ⟨v, hv, h1, h2, h3⟩ := anomaly_value e.pi hpi m.tPeri hs x (hin x hx).1
      exact ⟨v, hv, h2, h3, h1⟩)
  refine ⟨r.map (fun v => pyMod v (2 * e.pi)), ?_, hp⟩
  unfold computeMeanAnomaly
  rw [hlim, ok_bind]
  simp only [hr, ok_bind, pure_eq_ok]

/-- Every such time is in an orbit or is the last pericenter, so the value is always determined. -/
theorem C15_determined (l : List K) (x : K) (h : Within l x) : (∃ c d, Orbit l x c d) ∨ l.getLast? = some x :=
  orbit_or_last l x h

/-- In particular it is 0 at every pericenter. -/
theorem C15_zero_at_pericenters (e : Ext K) (o : Obj K) (p a : List ℕ) (m : Meas K) (hm : prepare e o p a = .ok m)
    (hpi : 0 < e.pi) (hs : m.tPeri.Pairwise (· < ·)) (x : K) (hx : x ∈ m.tPeri) (hw : Within m.tApo x) :
    computeMeanAnomaly e m [x] = .ok [0] := by
  obtain ⟨i, hi, rfl⟩ := List.mem_iff_getElem.mp hx
  have hmono : ∀ j k (hj : j < m.tPeri.length) (hk : k < m.tPeri.length), j ≤ k → m.tPeri[j] ≤ m.tPeri[k] := by
    intro j k hj hk hjk
    rcases hjk.lt_or_eq with h | rfl
    · exact (List.pairwise_iff_getElem.mp hs j k hj hk h).le
    · exact le_refl _
  have hwp : Within m.tPeri m.tPeri[i] := by
    have h0 : 0 < m.tPeri.length := by omega
    refine ⟨m.tPeri[0], m.tPeri[m.tPeri.length - 1], ?_, ?_, hmono _ _ _ _ (by omega), hmono _ _ _ _ (by omega)⟩
    · rw [List.head?_eq_getElem?, List.getElem?_eq_getElem h0]
    · rw [List.getLast?_eq_getElem?, List.getElem?_eq_getElem]
  obtain ⟨r, hr, hp⟩ := C15_mean_anomaly e o p a m hm hpi hs [m.tPeri[i]] (by
    intro y hy; rw [List.mem_singleton] at hy; subst hy; exact ⟨hwp, hw⟩)
  rw [hr]
  cases hp with
  | cons h t =>
    cases t
    obtain ⟨_, _, h3, h4⟩ := h
    by_cases hl : i + 1 < m.tPeri.length
    · have := h3 m.tPeri[i] m.tPeri[i + 1] ⟨le_refl _, List.pairwise_iff_getElem.mp hs i (i + 1) hi hl (by omega), i,
        by simp [hi], by simp [hl]⟩
      rw [this]; simp
    · rw [h4 (by rw [List.getLast?_eq_getElem?, ← List.getElem?_eq_getElem hi]; congr 1; omega)]

/-- It does not depend on the other pericenters: two measurements that agree on the pericenters before and after a time
give the same value there. -/
theorem C15_local (e e' : Ext K) (o o' : Obj K) (p a p' a' : List ℕ) (m m' : Meas K) (hm : prepare e o p a = .ok m)
    (hm' : prepare e' o' p' a' = .ok m') (hpi : 0 < e.pi) (hpi' : e'.pi = e.pi) (hs : m.tPeri.Pairwise (· < ·))
    (hs' : m'.tPeri.Pairwise (· < ·)) (x c d : K) (ho : Orbit m.tPeri x c d) (ho' : Orbit m'.tPeri x c d)
    (hx : Within m.tPeri x ∧ Within m.tApo x) (hx' : Within m'.tPeri x ∧ Within m'.tApo x) :
    computeMeanAnomaly e m [x] = computeMeanAnomaly e' m' [x] := by
  obtain ⟨r, hr, hp⟩ := C15_mean_anomaly e o p a m hm hpi hs [x] (by
    intro y hy; rw [List.mem_singleton] at hy; subst hy; exact hx)
  obtain ⟨r', hr', hp'⟩ := C15_mean_anomaly e' o' p' a' m' hm' (hpi' ▸ hpi) hs' [x] (by
    intro y hy; rw [List.mem_singleton] at hy; subst hy; exact hx')
  rw [hr, hr']
  cases hp with
  | cons h t =>
    cases t
    cases hp' with
    | cons h' t' =>
      cases t'
      rw [h.2.2.1 c d ho, h'.2.2.1 c d ho', hpi']

example : (prepare Demo.ext Demo.obj [2, 6, 10, 14] [4, 8, 12, 16]).map (fun m => (m.tPeri, m.tApo))
    = .ok ([2, 6, 10, 14], [4, 8, 12, 16]) := by decide +kernel

example : Orbit [2, 6, 10, (14 : ℚ)] 7 6 10 := ⟨by decide, by decide, 1, rfl, rfl⟩

example : (prepare Demo.ext Demo.obj [2, 6, 10, 14] [4, 8, 12, 16] >>= fun m =>
      computeMeanAnomaly Demo.ext m [5, 6, 7, 9, 10, 14])
    = .ok [3 / 4 * (44 / 7), 0, 1 / 4 * (44 / 7), 3 / 4 * (44 / 7), 0, 0] := by decide +kernel

end GwEcc
