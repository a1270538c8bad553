import Verif.Props.Levels
import Verif.Props.Values
import Verif.Lemmas.Units

/-!
# C76: what a success at the strict debug level guarantees
-/

set_option linter.unusedSectionVars false

namespace GwEcc

open Spec

variable {K : Type} [Field K] [LinearOrder K] [IsStrictOrderedRing K]

theorem debugMessage_two (i v : Bool) : debugMessage 2 i v = .error .exception := by
  cases i <;> cases v <;> rfl

theorem trimEnd_two {l l' : List ℕ} {x : ℕ} (h : trimEnd 2 l x = .ok l') : l' = l := by
  unfold trimEnd at h
  simp only at h
  split at h
  · rw [debugMessage_two] at h
    exact absurd h (by simp [bind, Except.bind])
  · exact (Except.ok.inj h).symm

theorem trimStart_two {l l' : List ℕ} {x : ℕ} (h : trimStart 2 l x = .ok l') : l' = l := by
  unfold trimStart at h
  simp only at h
  split at h
  · rw [debugMessage_two] at h
    exact absurd h (by simp [bind, Except.bind])
  · exact (Except.ok.inj h).symm

theorem dropJumps_two {ph : ℕ → K} {R : K} {l l' : List ℕ} (h : dropJumps ph R 2 l = .ok l') : l' = l := by
  unfold dropJumps at h
  obtain ⟨l1, h1, h2⟩ := bind_ok h
  have e1 : l1 = l := by
    unfold dropJumpsEnd at h1
    split at h1
    · exact (Except.ok.inj h1).symm
    · split at h1
      · obtain ⟨_, _, h3⟩ := bind_ok h1
        obtain ⟨_, _, h4⟩ := bind_ok h3
        rw [debugMessage_two] at h4
        exact absurd h4 (by simp [bind, Except.bind])
      · exact (Except.ok.inj h1).symm
  subst e1
  unfold dropJumpsStart at h2
  split at h2
  · exact (Except.ok.inj h2).symm
  · split at h2
    · obtain ⟨_, _, h3⟩ := bind_ok h2
      obtain ⟨_, _, h4⟩ := bind_ok h3
      rw [debugMessage_two] at h4
      exact absurd h4 (by simp [bind, Except.bind])
    · exact (Except.ok.inj h2).symm

theorem dropTooClose_two {ph : ℕ → K} {d : K} {l l' : List ℕ} (h : dropTooClose ph d 2 l = .ok l') : l' = l := by
  unfold dropTooClose at h
  simp only at h
  split at h
  · exact (Except.ok.inj h).symm
  · obtain ⟨l1, h1, h2⟩ := bind_ok h
    have e1 : l1 = l := by
      split at h1
      · obtain ⟨_, _, h3⟩ := bind_ok h1
        obtain ⟨_, _, h4⟩ := bind_ok h3
        rw [debugMessage_two] at h4
        exact absurd h4 (by simp [bind, Except.bind])
      · exact (Except.ok.inj h1).symm
    subst e1
    split at h2
    · obtain ⟨_, _, h3⟩ := bind_ok h2
      rw [debugMessage_two] at h3
      exact absurd h3 (by simp [bind, Except.bind])
    · exact (Except.ok.inj h2).symm

theorem getGoodExtrema_two {ph : ℕ → K} {R d : K} {p a p' a' : List ℕ}
    (h : getGoodExtrema ph R d 2 p a = .ok (p', a')) : p' = p ∧ a' = a := by
  unfold getGoodExtrema at h
  obtain ⟨p1, h1, k1⟩ := bind_ok h
  obtain ⟨a1, h2, k2⟩ := bind_ok k1
  obtain ⟨p2, h3, k3⟩ := bind_ok k2
  obtain ⟨a2, h4, k4⟩ := bind_ok k3
  rw [dropTooClose_two h3, dropTooClose_two h4, dropJumps_two h1, dropJumps_two h2] at k4
  unfold dropExtraAtEnds at k4
  obtain ⟨_, _, k5⟩ := bind_ok k4
  obtain ⟨p3, h5, k6⟩ := bind_ok k5
  obtain ⟨_, _, k7⟩ := bind_ok k6
  obtain ⟨a3, h6, k8⟩ := bind_ok k7
  obtain ⟨_, _, k9⟩ := bind_ok k8
  obtain ⟨p4, h7, k10⟩ := bind_ok k9
  obtain ⟨_, _, k11⟩ := bind_ok k10
  obtain ⟨a4, h8, k12⟩ := bind_ok k11
  have := Except.ok.inj k12
  simp only [Prod.mk.injEq] at this
  rw [trimStart_two h7, trimStart_two h8, trimEnd_two h5, trimEnd_two h6] at this
  exact ⟨this.1.symm, this.2.symm⟩

/-- Times that continue those of a strictly increasing array. -/
theorem strictMono_extend (l : List K) (h : l.Pairwise (· < ·)) :
    ∃ t : ℕ → K, StrictMono t ∧ ∀ i, i < l.length → t i = at' l i := by
  cases hl : l with
  | nil => exact ⟨fun i => (i : K), fun a b hab => Nat.cast_lt.mpr hab, fun i hi => absurd hi (by simp)⟩
  | cons x xs =>
    rw [← hl]
    have h0 : 0 < l.length := by rw [hl]; simp
    refine ⟨fun i => at' l (min i (l.length - 1)) + ((i - (l.length - 1) : ℕ) : K), ?_, ?_⟩
    · apply strictMono_nat_of_lt_succ
      intro n
      have hg : ∀ k, k < l.length → at' l k = l.getD k 0 := fun _ _ => rfl
      by_cases hn : n + 1 < l.length
      · have e1 : min n (l.length - 1) = n := by omega
        have e2 : min (n + 1) (l.length - 1) = n + 1 := by omega
        have e3 : n - (l.length - 1) = 0 := by omega
        have e4 : n + 1 - (l.length - 1) = 0 := by omega
        rw [e1, e2, e3, e4]
        simp only [Nat.cast_zero, add_zero]
        unfold at'
        rw [List.getD_eq_getElem _ _ (by omega), List.getD_eq_getElem _ _ hn]
        exact List.pairwise_iff_getElem.mp h n (n + 1) (by omega) hn (by omega)
      · have e1 : min n (l.length - 1) = l.length - 1 := by omega
        have e2 : min (n + 1) (l.length - 1) = l.length - 1 := by omega
        have e3 : n + 1 - (l.length - 1) = (n - (l.length - 1)) + 1 := by omega
        rw [e1, e2, e3]
        push_cast
        linarith
    · intro i hi
      have e1 : min i (l.length - 1) = i := by omega
      have e2 : i - (l.length - 1) = 0 := by omega
      simp only [e1, e2, Nat.cast_zero, add_zero]

/-- What the checks on the extrema guarantee at the strict level: nothing found was dropped (the first extremum of each kind
is left out only for a precessing system whose spin-induced oscillations were filtered), and the checks that remain pass. -/
theorem settle_two {e : Ext K} {o : Obj K} (hl : o.level = 2) {p a p' a' : List ℕ}
    (h : settleExtrema e o p a = .ok (p', a')) :
    (p', a') = (if o.precessing && o.filtered then (p.drop 1, a.drop 1) else (p, a)) ∧
    (∃ r, checkAlternate (at' o.t) 2 p' a' = .ok r) ∧
    (∃ r, checkSeparation e.pi 2 false (takeAt o.phase p') (takeAt o.t p') = .ok r) ∧
    (∃ r, checkSeparation e.pi 2 false (takeAt o.phase a') (takeAt o.t a') = .ok r) := by
  have hset : settleExtrema e o p a =
      (getGoodExtrema (at' o.phase) (3 / 2) (4 * e.pi) o.level p a >>= fun q =>
        checkDropped o.level p q.1 >>= fun _ => checkDropped o.level a q.2 >>= fun _ =>
        (fun s : List ℕ × List ℕ => checkAlternate (at' o.t) o.level s.1 s.2 >>= fun _ =>
          checkSeparation e.pi o.level false (takeAt o.phase s.1) (takeAt o.t s.1) >>= fun _ =>
          checkSeparation e.pi o.level false (takeAt o.phase s.2) (takeAt o.t s.2) >>= fun _ => pure (s.1, s.2))
        (if (o.precessing && o.filtered) = true then (q.1.drop 1, q.2.drop 1) else (q.1, q.2))) := rfl
  rw [hset, hl] at h
  obtain ⟨⟨p1, a1⟩, hg, h1⟩ := bind_ok h
  obtain ⟨rfl, rfl⟩ := getGoodExtrema_two hg
  obtain ⟨_, _, h2⟩ := bind_ok h1
  obtain ⟨_, _, h3⟩ := bind_ok h2
  simp only at h3
  obtain ⟨s, hs⟩ : ∃ s, s = (if (o.precessing && o.filtered) = true then (p1.drop 1, a1.drop 1) else (p1, a1)) :=
    ⟨_, rfl⟩
  rw [← hs] at h3
  obtain ⟨c1, hc1, h4⟩ := bind_ok h3
  obtain ⟨c2, hc2, h5⟩ := bind_ok h4
  obtain ⟨c3, hc3, h6⟩ := bind_ok h5
  have h7 := Except.ok.inj h6
  obtain ⟨s1, s2⟩ := s
  simp only [Prod.mk.injEq] at h7
  obtain ⟨rfl, rfl⟩ := h7
  exact ⟨hs, ⟨c1, hc1⟩, ⟨c2, hc2⟩, ⟨c3, hc3⟩⟩

/-- The steps of the phase between the extrema of a list of samples. -/
theorem takeAt_step (ph : List K) (ext : List ℕ) (hph : ph.Pairwise (· < ·)) (hin : ∀ i ∈ ext, i < ph.length)
    (hs : ext.Pairwise (· < ·)) (i : ℕ) (hi : i + 1 < (takeAt ph ext).length) : 0 < OrbitalStep (takeAt ph ext) i := by
  have hle : i + 1 < ext.length := by simpa [takeAt] using hi
  unfold OrbitalStep
  rw [List.getD_eq_getElem _ _ hi, List.getD_eq_getElem _ _ (by omega : i < (takeAt ph ext).length)]
  simp only [takeAt, List.getElem_map, at']
  have a1 := hin ext[i] (List.getElem_mem _)
  have a2 := hin ext[i + 1] (List.getElem_mem _)
  rw [List.getD_eq_getElem _ _ a1, List.getD_eq_getElem _ _ a2]
  have := List.pairwise_iff_getElem.mp hph _ _ a1 a2 (List.pairwise_iff_getElem.mp hs i (i + 1) (by omega) hle (by omega))
  have h2 : (0 : K) < 2 := by norm_num
  exact div_pos (sub_pos.mpr this) h2

/-- A measurement that succeeds at debug level 2, on increasing time and phase and extrema that are distinct samples: every
extremum found was used (the first of each kind apart, for a filtered precessing system), pericenters and apocenters
strictly alternate, neighbouring extrema of one kind are at least three quarters of an orbit apart in phase with no step
more than one and a half times the step before it. -/
theorem C76_extrema [FloorRing K] (e : Ext K) (o : Obj K) (cache cache' : AvgCache K) (ret : Dict String (Val K))
    (m : Meas K) (p a : List ℕ) (hl : o.level = 2) (h : measureEcc e o cache = .ok (ret, some m, cache'))
    (hpi : 0 < e.pi) (ht : o.t.Pairwise (· < ·)) (hph : o.phase.Pairwise (· < ·)) (hlen : o.phase.length = o.t.length)
    (hfp : e.find .pericenters = .ok p)
    (hfa : if o.midpoints then a = midpointApocenters p else e.find .apocenters = .ok a)
    (hp : p.Pairwise (· < ·)) (ha : a.Pairwise (· < ·)) (hpin : ∀ i ∈ p, i < o.t.length) (hain : ∀ i ∈ a, i < o.t.length)
    (hdisj : ∀ z ∈ p, z ∉ a) :
    (m.pericenters, m.apocenters) = (if o.precessing && o.filtered then (p.drop 1, a.drop 1) else (p, a)) ∧
    Alternate m.pericenters m.apocenters ∧
    (∀ ext, ext = m.pericenters ∨ ext = m.apocenters → ∀ i,
      ¬ TooClose e.pi (ext.map fun j => o.phase.getD j 0) i ∧ ¬ HalfOrbit e.pi (ext.map fun j => o.phase.getD j 0) i ∧
      ¬ TooFar (ext.map fun j => o.phase.getD j 0) i) := by
  obtain ⟨p0, a0, lacking, hf, ⟨hn, _⟩ | ⟨m', p', a', hmo, _, hs, hm, hev⟩⟩ := measureEcc_ok h
  · exact absurd hn (by simp)
  injection hmo with hmo; subst hmo
  obtain ⟨_, hpp, haa, _, _, h2p, h2a, _⟩ := prepare_ok hm
  have hfound : p0 = p ∧ a0 = a := by
    unfold findBoth at hf
    rw [hfp, ok_bind] at hf
    obtain ⟨ip, _, hf1⟩ := bind_ok hf
    obtain ⟨a1, ha1, hf2⟩ := bind_ok hf1
    obtain ⟨ia, _, hf3⟩ := bind_ok hf2
    have hf4 := Except.ok.inj hf3
    simp only [Prod.mk.injEq] at hf4
    refine ⟨hf4.1.symm, ?_⟩
    rw [← hf4.2.1]
    split at hfa
    · rename_i hmid
      rw [if_pos hmid] at ha1
      rw [hfa]
      exact (Except.ok.inj ha1).symm
    · rename_i hmid
      rw [if_neg hmid, hfa] at ha1
      exact (Except.ok.inj ha1).symm
  obtain ⟨rfl, rfl⟩ := hfound
  obtain ⟨hsel, ⟨r1, halt⟩, ⟨r2, hsp⟩, ⟨r3, hsa⟩⟩ := settle_two hl hs
  subst hpp haa
  have hsub : m.pericenters.Sublist p0 ∧ m.apocenters.Sublist a0 := by
    split at hsel
    · simp only [Prod.mk.injEq] at hsel
      rw [hsel.1, hsel.2]
      exact ⟨List.drop_sublist _ _, List.drop_sublist _ _⟩
    · simp only [Prod.mk.injEq] at hsel
      rw [hsel.1, hsel.2]
      exact ⟨List.Sublist.refl _, List.Sublist.refl _⟩
  have hp' := hp.sublist hsub.1
  have ha' := ha.sublist hsub.2
  refine ⟨hsel, ?_, ?_⟩
  · obtain ⟨t, htm, hte⟩ := strictMono_extend o.t ht
    have hrel := checkAlternate_rel (k := 1) one_pos 0 (t := at' o.t) (t' := t) 2 m.pericenters m.apocenters (by
      intro i hi
      have : i < o.t.length := hi.elim (fun h => hpin i (hsub.1.subset h)) (fun h => hain i (hsub.2.subset h))
      rw [hte i this]; unfold newTime; ring)
    by_contra hc
    have := ((C27_alternation t htm m.pericenters m.apocenters hp' ha'
      (by intro h0; rw [h0] at h2p; simp at h2p) (by intro h0; rw [h0] at h2a; simp at h2a)
      (fun z hz hz' => hdisj z (hsub.1.subset hz) (hsub.2.subset hz'))).2 hc).2
    rw [hrel, halt] at this
    exact absurd this (by simp)
  · have key : ∀ ext : List ℕ, ext.Pairwise (· < ·) → (∀ i ∈ ext, i < o.t.length) →
        (∃ r, checkSeparation e.pi 2 false (takeAt o.phase ext) (takeAt o.t ext) = .ok r) → ∀ i,
        ¬ TooClose e.pi (ext.map fun j => o.phase.getD j 0) i ∧ ¬ HalfOrbit e.pi (ext.map fun j => o.phase.getD j 0) i ∧
        ¬ TooFar (ext.map fun j => o.phase.getD j 0) i := by
      rintro ext hx hin ⟨r, hr⟩ i
      have hstrict := (C66_separation_strict e.pi hpi false (takeAt o.phase ext) (takeAt o.t ext) (by simp [takeAt])
        (takeAt_step o.phase ext hph (by rw [hlen]; exact hin) hx)).1
      have hno : ¬ ∃ i, TooClose e.pi (takeAt o.phase ext) i ∨ HalfOrbit e.pi (takeAt o.phase ext) i ∨
          TooFar (takeAt o.phase ext) i := by
        intro hh
        rw [hstrict.mpr hh] at hr
        exact absurd hr (by simp)
      refine ⟨fun h => hno ⟨i, Or.inl h⟩, fun h => hno ⟨i, Or.inr (Or.inl h)⟩, fun h => hno ⟨i, Or.inr (Or.inr h)⟩⟩
    rintro ext (rfl | rfl)
    · exact key _ hp' (fun i hi => hpin i (hsub.1.subset hi)) ⟨r2, hsp⟩
    · exact key _ ha' (fun i hi => hain i (hsub.2.subset hi)) ⟨r3, hsa⟩

/-- A measurement that succeeds at debug level 2 returns no negative eccentricity; the derivative of the eccentricity is
nowhere positive at the times checked (all samples in the common range of the extrema), and, for frequency input, times
increase strictly with the returned frequencies in the order given. -/
theorem C76_values [FloorRing K] (e : Ext K) (o : Obj K) (cache cache' : AvgCache K) (ret : Dict String (Val K))
    (m : Meas K) (hl : o.level = 2) (h : measureEcc e o cache = .ok (ret, some m, cache')) :
    (∃ ve, ret.get? "eccentricity" = some ve ∧ ∀ x ∈ ve.atleast1d, 0 ≤ x) ∧
    (∃ d, derivativeOfEccentricity e m (o.dataT.filter (fun x => decide (m.tmin ≤ x ∧ x ≤ m.tmax))) = .ok d ∧
      ∀ x ∈ d, x ≤ 0) ∧
    (o.domain = .frequency → ∃ c tref fOut, trefFromFref e m cache o.refIn.atleast1d = .ok ((tref, fOut), c) ∧
      tref.Pairwise (· < ·)) := by
  obtain ⟨p0, a0, lacking, hf, ⟨hn, _⟩ | ⟨m', p', a', hmo, _, hs, hm, hev⟩⟩ := measureEcc_ok h
  · exact absurd hn (by simp)
  injection hmo with hmo; subst hmo
  obtain ⟨ho, hpp, haa, _, _, _, _, _, htc, _, _⟩ := prepare_ok hm
  subst ho
  have hev0 := hev
  unfold evaluate at hev
  obtain ⟨⟨trefIn, fOut, c⟩, hr, h1⟩ := bind_ok hev
  simp only at h1
  split at h1
  · exact absurd h1 (by simp)
  split at h1
  · obtain ⟨_, _, h2⟩ := bind_ok h1
    exact absurd h2 (by simp)
  obtain ⟨t0, _, h2⟩ := bind_ok h1
  obtain ⟨t1, _, h3⟩ := bind_ok h2
  obtain ⟨q0, _, h4⟩ := bind_ok h3
  obtain ⟨q1, _, h5⟩ := bind_ok h4
  split at h5
  · exact absurd h5 (by simp)
  obtain ⟨ecc, hecc, h6⟩ := bind_ok h5
  obtain ⟨ano, hano, h7⟩ := bind_ok h6
  obtain ⟨om, hom, h8⟩ := bind_ok h7
  obtain ⟨on, hon, h9⟩ := bind_ok h8
  obtain ⟨r, hr', h10⟩ := bind_ok h9
  have h11 := Except.ok.inj h10
  simp only [Prod.mk.injEq] at h11
  obtain ⟨rfl, rfl⟩ := h11
  refine ⟨?_, ?_, ?_⟩
  · obtain ⟨ve, va, vr, hre, _, _, _, h4, _, _⟩ := makeReturn_ok hr'
    have hk := retDict_get m.o.domain ve va vr
    rw [← hre] at hk
    refine ⟨ve, hk.1, ?_⟩
    rw [h4]
    intro x hx
    by_contra hneg
    rw [if_pos (List.any_eq_true.mpr ⟨x, hx, decide_eq_true (not_le.mp hneg)⟩), hl, debugMessage_two] at hon
    exact absurd hon (by simp)
  · unfold checkMonotonicity at hom
    obtain ⟨d, hd, hom1⟩ := bind_ok hom
    rw [← htc]
    refine ⟨d, hd, ?_⟩
    intro x hx
    by_contra hneg
    rw [if_pos (List.any_eq_true.mpr ⟨x, hx, decide_eq_true (not_le.mp hneg)⟩), hl, debugMessage_two] at hom1
    exact absurd hom1 (by simp)
  · intro hd
    have hfr := referenceTimes_frequency hd hr
    refine ⟨_, trefIn, fOut, hfr, ?_⟩
    unfold trefFromFref at hfr
    split at hfr
    · obtain ⟨⟨f, c'⟩, _, g1⟩ := bind_ok hfr
      obtain ⟨⟨ts, w⟩, _, g2⟩ := bind_ok g1
      obtain ⟨_, _, g3⟩ := bind_ok g2
      obtain ⟨tr, _, g4⟩ := bind_ok g3
      obtain ⟨out, hout, g5⟩ := bind_ok g4
      have g6 := Except.ok.inj g5
      simp only [Prod.mk.injEq] at g6
      rw [g6.1.1] at hout
      rw [← diff_pos_iff]
      intro x hx
      by_contra hneg
      rw [if_pos (List.any_eq_true.mpr ⟨x, hx, decide_eq_true (not_lt.mp hneg)⟩), hl, debugMessage_two] at hout
      exact absurd hout (by simp)
    · exact absurd hfr (by simp)

/-! ### The premises are met -/

namespace Demo

/-- The demonstration object at the strict debug level. -/
def objStrict : Obj ℚ := { obj with level := 2 }

theorem times_increasing : times.Pairwise (· < ·) := by decide +kernel

theorem strict_alternate : checkAlternate (at' times) 2 [2, 6, 10, 14] [4, 8, 12, 16] = .ok .silent := by
  obtain ⟨t, htm, hte⟩ := strictMono_extend times times_increasing
  have hrel := checkAlternate_rel (k := 1) one_pos 0 (t := at' times) (t' := t) 2 [2, 6, 10, 14] [4, 8, 12, 16] (by
    intro i hi
    have hlt : i < times.length := by
      have hn : times.length = 20 := by decide
      rw [hn]
      simp only [List.mem_cons, List.not_mem_nil, or_false] at hi
      omega
    rw [hte i hlt]; unfold newTime; ring)
  rw [← hrel]
  exact ((C27_alternation t htm _ _ (by decide) (by decide) (by decide) (by decide) (by decide)).1
    (by unfold Alternate; decide)).2

/-- It succeeds. -/
theorem strict_succeeds : ∃ ret m c, measureEcc ext objStrict none = .ok (ret, some m, c) := by
  have hset : settleExtrema ext objStrict [2, 6, 10, 14] [4, 8, 12, 16] =
      (getGoodExtrema (at' objStrict.phase) (3 / 2) (4 * ext.pi) 2 [2, 6, 10, 14] [4, 8, 12, 16] >>= fun q =>
        checkDropped 2 [2, 6, 10, 14] q.1 >>= fun _ => checkDropped 2 [4, 8, 12, 16] q.2 >>= fun _ =>
        checkAlternate (at' times) 2 q.1 q.2 >>= fun _ =>
        checkSeparation ext.pi 2 false (takeAt objStrict.phase q.1) (takeAt times q.1) >>= fun _ =>
        checkSeparation ext.pi 2 false (takeAt objStrict.phase q.2) (takeAt times q.2) >>= fun _ => pure (q.1, q.2)) := rfl
  have hg : getGoodExtrema (at' objStrict.phase) (3 / 2) (4 * ext.pi) 2 [2, 6, 10, 14] [4, 8, 12, 16]
      = .ok ([2, 6, 10, 14], [4, 8, 12, 16]) := by decide +kernel
  have hs : settleExtrema ext objStrict [2, 6, 10, 14] [4, 8, 12, 16] = .ok ([2, 6, 10, 14], [4, 8, 12, 16]) := by
    rw [hset, hg]
    simp only [ok_bind]
    rw [show checkDropped 2 [2, 6, 10, 14] [2, 6, 10, 14] = .ok .silent by decide,
      show checkDropped 2 [4, 8, 12, 16] [4, 8, 12, 16] = .ok .silent by decide, strict_alternate]
    simp only [ok_bind]
    have h1 : (checkSeparation ext.pi 2 false (takeAt objStrict.phase [2, 6, 10, 14]) (takeAt times [2, 6, 10, 14])).toOption.isSome
        = true := by decide +kernel
    have h2 : (checkSeparation ext.pi 2 false (takeAt objStrict.phase [4, 8, 12, 16]) (takeAt times [4, 8, 12, 16])).toOption.isSome
        = true := by decide +kernel
    revert h1 h2
    generalize checkSeparation ext.pi 2 false (takeAt objStrict.phase [2, 6, 10, 14]) (takeAt times [2, 6, 10, 14]) = x
    generalize checkSeparation ext.pi 2 false (takeAt objStrict.phase [4, 8, 12, 16]) (takeAt times [4, 8, 12, 16]) = y
    intro h1 h2
    cases x with
    | error _ => exact absurd h1 (by simp [Except.toOption])
    | ok _ =>
      cases y with
      | error _ => exact absurd h2 (by simp [Except.toOption])
      | ok _ => rfl
  have hf : findBoth ext objStrict = .ok ([2, 6, 10, 14], [4, 8, 12, 16], false) := by decide +kernel
  have hm : ((prepare ext objStrict [2, 6, 10, 14] [4, 8, 12, 16] >>= fun m =>
      evaluate ext m none >>= fun rc => pure (rc.1, some m, rc.2)) : Py _).toOption.isSome = true := by decide +kernel
  have hall : measureEcc ext objStrict none = (prepare ext objStrict [2, 6, 10, 14] [4, 8, 12, 16] >>= fun m =>
      evaluate ext m none >>= fun rc => pure (rc.1, some m, rc.2)) := by
    unfold measureEcc
    rw [hf, ok_bind]
    simp only
    rw [if_neg (by decide), hs, ok_bind]
  rw [hall]
  cases hx : prepare ext objStrict [2, 6, 10, 14] [4, 8, 12, 16] with
  | error _ => rw [hx] at hm; exact absurd hm (by simp [bind, Except.bind, Except.toOption])
  | ok m =>
    rw [hx, ok_bind] at hm
    rw [ok_bind]
    cases hy : evaluate ext m none with
    | error _ => rw [hy] at hm; exact absurd hm (by simp [bind, Except.bind, Except.toOption])
    | ok rc => exact ⟨rc.1, m, rc.2, rfl⟩

/-- The other premises hold for it. -/
example : objStrict.level = 2 ∧ 0 < ext.pi ∧ objStrict.t.Pairwise (· < ·) ∧ objStrict.phase.Pairwise (· < ·) ∧
    objStrict.phase.length = objStrict.t.length ∧ ext.find .pericenters = .ok [2, 6, 10, 14] ∧
    ext.find .apocenters = .ok [4, 8, 12, 16] := by decide +kernel

end Demo

end GwEcc
