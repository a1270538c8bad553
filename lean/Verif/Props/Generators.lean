import Verif.Model.Generators
import Verif.Props.Compare
import Verif.Props.LoadFiles
import Mathlib.Tactic.Linarith
import Mathlib.Tactic.Ring
import Mathlib.Tactic.NormNum
import Mathlib.Tactic.FieldSimp

/-!
# C101 The waveform generators shipped with the examples and the tests
-/

set_option linter.unusedSectionVars false

namespace GwEcc.Gen

open Load

variable {K C : Type} [Field K] [LinearOrder K] [IsStrictOrderedRing K]

/-! ### Specification -/

/-- Times `0, dt, 2 dt, …`. -/
def EvenFrom0 (t : List K) (dt : K) : Prop := ∀ (k : ℕ) (x : K), t[k]? = some x → x = k * dt

/-- As many amplitudes and phases as times. -/
def Evolution.HasLength (e : Evolution K) (n : ℕ) : Prop := e.t.length = n ∧ e.amp.length = n ∧ e.phase.length = n

/-- What any number of calls can make of a directory that is empty at first, each ending, raising or being killed at any point. -/
inductive Reached [FloorRing K] (lib : SeobLib K C) : ModeDir K C → Prop
  | empty : Reached lib []
  | more {dir dir' : ModeDir K C} {a : SeobArgs K} {save : Bool} : Reached lib dir → dir' ∈ (getModes lib a save dir).1 →
      Reached lib dir'

theorem get?_mapVal {V W : Type} (f : V → W) (d : Dict LM V) (k : LM) :
    Dict.get? (List.map (fun (p : LM × V) => (p.1, f p.2)) d) k = (d.get? k).map f := by
  induction d with
  | nil => rfl
  | cons p d ih =>
    rw [List.map_cons, Dict.get?_cons, Dict.get?_cons, ih]
    by_cases hk : k = p.1
    · rw [if_pos hk, if_pos hk]; rfl
    · rw [if_neg hk, if_neg hk]

/-! ### TEOBResumS-DALI -/

theorem unwrap_id [FloorRing K] {pi : K} : ∀ (l : List K) (prev : K),
    (∀ (i : ℕ) (x y : K), (prev :: l)[i]? = some x → l[i]? = some y → |y - x| < pi) → Compare.unwrapFrom pi prev 0 l = l
  | [], _, _ => rfl
  | x :: l, prev, h => by
    have h0 : Compare.unwrapStep pi (x - prev) = 0 := by
      unfold Compare.unwrapStep
      exact if_pos (h 0 prev x rfl rfl)
    unfold Compare.unwrapFrom
    rw [h0, add_zero, add_zero, unwrap_id l x]
    intro i a b ha hb
    exact h (i + 1) a b (by rw [List.getElem?_cons_succ]; exact ha) (by rw [List.getElem?_cons_succ]; exact hb)

theorem getElem?_reverse' {α : Type} {l : List α} {j : ℕ} (h : j < l.length) : l.reverse[j]? = l[l.length - 1 - j]? :=
  List.getElem?_reverse h

theorem tail_get {α : Type} (l : List α) (i : ℕ) : l.tail[i]? = l[i + 1]? := by
  cases l with
  | nil => simp
  | cons a l => simp

/-- **C101, joining the two evolutions.**  As many samples as both evolutions have, the common first one counted once.  The
backward part is the backward evolution read from its end, the forward part the forward evolution from its second sample on, its times
shifted to the end of the backward part; phases of the backward part are right up to multiples of `2 pi`. -/
theorem C101_join [FloorRing K] {pi : K} (hpi : 0 < pi) {fwd bwd r : Evolution K} {m n : ℕ} (hf : fwd.HasLength n) (hb : bwd.HasLength m)
    (h : join pi fwd bwd = .ok r) :
    r.HasLength (m + (n - 1)) ∧ ∃ last, bwd.t.getLast? = some last ∧
      (∀ j < m, r.t[j]? = bwd.t[j]? ∧ r.amp[j]? = bwd.amp[m - 1 - j]? ∧
        ∃ x, bwd.phase[m - 1 - j]? = some x ∧ ∃ k : ℤ, r.phase[j]? = some (x + 2 * pi * k)) ∧
      (∀ i, 0 < i → i < n → r.t[m - 1 + i]? = fwd.t[i]?.map (· + last) ∧ r.amp[m - 1 + i]? = fwd.amp[i]? ∧
        r.phase[m - 1 + i]? = fwd.phase[i]?) := by
  obtain ⟨f1, f2, f3⟩ := hf
  obtain ⟨b1, b2, b3⟩ := hb
  unfold join at h
  obtain ⟨last, hl, h⟩ := bind_ok h
  have hlast : bwd.t.getLast? = some last := by
    split at hl
    · rename_i x hx
      rw [hx, Except.ok.inj hl]
    · exact absurd hl (by simp)
  have h := Except.ok.inj h
  subst h
  have hm : 0 < m := by
    rw [← b1]
    cases hbt : bwd.t with
    | nil => rw [hbt] at hlast; cases hlast
    | cons _ _ => simp
  obtain ⟨u1, _, u3, _⟩ := Compare.C63_unwrap hpi bwd.phase.reverse
  have u1' : (Compare.unwrap pi bwd.phase.reverse).length = m := by rw [u1, List.length_reverse, b3]
  refine ⟨⟨?_, ?_, ?_⟩, last, hlast, ?_, ?_⟩
  · simp [b1, f1]
  · simp [b2, f2]
  · simp [u1', f3]
  · intro j hj
    dsimp only
    refine ⟨List.getElem?_append_left (by omega), ?_, ?_⟩
    · rw [List.getElem?_append_left (by simp [b2]; omega), getElem?_reverse' (by omega), b2]
    · rw [List.getElem?_append_left (by omega)]
      have hx : m - 1 - j < bwd.phase.length := by omega
      refine ⟨bwd.phase[m - 1 - j], List.getElem?_eq_getElem hx, ?_⟩
      obtain ⟨y, k, hy, hk⟩ := u3 j bwd.phase[m - 1 - j] (by
        rw [getElem?_reverse' (by omega), b3]; exact List.getElem?_eq_getElem hx)
      exact ⟨k, by rw [hy, hk]⟩
  · intro i hi hin
    dsimp only
    obtain ⟨i, rfl⟩ : ∃ i', i = i' + 1 := ⟨i - 1, by omega⟩
    have e : m - 1 + (i + 1) = m + i := by omega
    rw [e]
    refine ⟨?_, ?_, ?_⟩
    · rw [List.getElem?_append_right (by omega), b1, Nat.add_sub_cancel_left, List.getElem?_map, tail_get]
    · rw [List.getElem?_append_right (by simp [b2]), List.length_reverse, b2, Nat.add_sub_cancel_left, tail_get]
    · rw [List.getElem?_append_right (by omega), u1', Nat.add_sub_cancel_left, tail_get]

/-- **C101, times of the joined evolution.**  If both evolutions have the times `0, dt, 2 dt, …`, so has the result, and each of its
samples comes as long before or after the common point as its evolution says. -/
theorem C101_even [FloorRing K] {pi dt : K} (hpi : 0 < pi) {fwd bwd r : Evolution K} {m n : ℕ} (hf : fwd.HasLength n)
    (hb : bwd.HasLength m) (ef : EvenFrom0 fwd.t dt) (eb : EvenFrom0 bwd.t dt) (h : join pi fwd bwd = .ok r) :
    EvenFrom0 r.t dt ∧ ∃ t0, r.t[m - 1]? = some t0 ∧
      (∀ j < m, ∃ x, bwd.t[m - 1 - j]? = some x ∧ r.t[j]? = some (t0 - x)) ∧
      ∀ i, 0 < i → i < n → ∃ x, fwd.t[i]? = some x ∧ r.t[m - 1 + i]? = some (t0 + x) := by
  obtain ⟨⟨l1, _, _⟩, last, hlast, g1, g2⟩ := C101_join hpi hf hb h
  have hm : 0 < m := by
    rw [← hb.1]
    cases hbt : bwd.t with
    | nil => rw [hbt] at hlast; cases hlast
    | cons _ _ => simp
  have hl : last = (m - 1 : ℕ) * dt := by
    apply eb
    rw [← hb.1, ← List.getLast?_eq_getElem?]
    exact hlast
  have hsome : ∀ i, i < n → ∃ x, fwd.t[i]? = some x := fun i hi =>
    ⟨fwd.t[i]'(by rw [hf.1]; exact hi), List.getElem?_eq_getElem _⟩
  have bsome : ∀ i, i < m → ∃ x, bwd.t[i]? = some x := fun i hi =>
    ⟨bwd.t[i]'(by rw [hb.1]; exact hi), List.getElem?_eq_getElem _⟩
  refine ⟨?_, last, ?_, ?_, ?_⟩
  · intro k x hx
    have hk : k < m + (n - 1) := by
      rw [← l1]
      exact (List.getElem?_eq_some_iff.mp hx).1
    by_cases hkm : k < m
    · rw [(g1 k hkm).1] at hx
      exact eb k x hx
    · obtain ⟨i, rfl⟩ : ∃ i, k = m - 1 + i := ⟨k - (m - 1), by omega⟩
      rw [(g2 i (by omega) (by omega)).1] at hx
      obtain ⟨y, hy⟩ := hsome i (by omega)
      rw [hy] at hx
      have hx : y + last = x := Option.some.inj hx
      rw [← hx, ef i y hy, hl]
      push_cast
      ring
  · rw [(g1 (m - 1) (by omega)).1, ← hb.1, ← List.getLast?_eq_getElem?]
    exact hlast
  · intro j hj
    obtain ⟨x, hx⟩ := bsome (m - 1 - j) (by omega)
    obtain ⟨y, hy⟩ := bsome j hj
    refine ⟨x, hx, ?_⟩
    rw [(g1 j hj).1, hy, eb j y hy, hl, eb _ x hx]
    have : ((m - 1 - j : ℕ) : K) = ((m - 1 : ℕ) : K) - j := by
      rw [Nat.cast_sub (by omega)]
    rw [this]
    congr 1
    ring
  · intro i hi hin
    obtain ⟨x, hx⟩ := hsome i hin
    refine ⟨x, hx, ?_⟩
    rw [(g2 i hi hin).1, hx, Option.map_some, add_comm]

/-- **C101, phases of the joined evolution.**  If the backward evolution's phase makes no steps of `pi` or more, the phases are
exactly those of the two evolutions; so if these agree at the common point there is no jump. -/
theorem C101_phase [FloorRing K] {pi : K} (hpi : 0 < pi) {fwd bwd r : Evolution K} {m n : ℕ} (hf : fwd.HasLength n) (hb : bwd.HasLength m)
    (hstep : ∀ (i : ℕ) (x y : K), bwd.phase[i]? = some x → bwd.phase[i + 1]? = some y → |y - x| < pi)
    (h : join pi fwd bwd = .ok r) :
    (∀ j < m, r.phase[j]? = bwd.phase[m - 1 - j]?) ∧ (∀ i, 0 < i → i < n → r.phase[m - 1 + i]? = fwd.phase[i]?) := by
  obtain ⟨_, last, _, _, g2⟩ := C101_join hpi hf hb h
  refine ⟨?_, fun i h1 h2 => (g2 i h1 h2).2.2⟩
  have hu : Compare.unwrap pi bwd.phase.reverse = bwd.phase.reverse := by
    have hrev : ∀ (i : ℕ) (x y : K), bwd.phase.reverse[i]? = some x → bwd.phase.reverse[i + 1]? = some y → |y - x| < pi := by
      intro i x y hx hy
      have hi : i + 1 < bwd.phase.length := by
        have := (List.getElem?_eq_some_iff.mp hy).1
        simpa using this
      rw [getElem?_reverse' (by omega)] at hx
      rw [getElem?_reverse' hi] at hy
      rw [abs_sub_comm]
      refine hstep _ y x hy ?_
      rw [← hx]
      congr 1
      omega
    cases hc : bwd.phase.reverse with
    | nil => rfl
    | cons a l =>
      rw [hc] at hrev
      change a :: Compare.unwrapFrom pi a 0 l = a :: l
      rw [unwrap_id l a]
      intro i x y hx hy
      exact hrev i x y hx (by rw [List.getElem?_cons_succ]; exact hy)
  intro j hj
  unfold join at h
  obtain ⟨last', _, h⟩ := bind_ok h
  have h := Except.ok.inj h
  subst h
  dsimp only
  rw [hu, List.getElem?_append_left (by rw [List.length_reverse, hb.2.2]; exact hj),
    getElem?_reverse' (by rw [hb.2.2]; exact hj), hb.2.2]

/-- **C101, the evolutions used.**  Total mass, mass ratio, spins, distance, starting frequency, eccentricity and anomaly are the
sample's; without `backwards = "yes"` the result is the forward evolution, with it the two evolutions joined, the backward one at
most `ode_tmax` (1 by default) long. -/
theorem C101_teob [FloorRing K] {pi : K} {run : TeobArgs K → Py (Evolution K)} {params : Dict String K} {backwards : Option String}
    {odeTmax : Option K} {r : Evolution K} (h : teob pi run params backwards odeTmax = .ok r) :
    ∃ m1 m2 chi1 chi2 d f e a fwd, params.get? "mass_1" = some m1 ∧ params.get? "mass_2" = some m2 ∧ m2 ≠ 0 ∧
      params.get? "spin_1z" = some chi1 ∧ params.get? "spin_2z" = some chi2 ∧ params.get? "luminosity_distance" = some d ∧
      params.get? "minimum_frequency" = some f ∧ params.get? "eccentricity" = some e ∧ params.get? "mean_per_ano" = some a ∧
      run ⟨m1 + m2, m1 / m2, chi1, chi2, d, f, e, a, none, none⟩ = .ok fwd ∧
      (backwards ≠ some "yes" → r = fwd) ∧
      (backwards = some "yes" → ∃ bwd, run ⟨m1 + m2, m1 / m2, chi1, chi2, d, f, e, a, some "yes", some (odeTmax.getD 1)⟩ = .ok bwd ∧
        join pi fwd bwd = .ok r) := by
  unfold teob teobArgs at h
  obtain ⟨args, hargs, h⟩ := bind_ok h
  obtain ⟨m1, h1, hargs⟩ := bind_ok hargs
  obtain ⟨m2, h2, hargs⟩ := bind_ok hargs
  by_cases h0 : m2 = 0
  · rw [if_pos h0] at hargs; exact absurd hargs (by simp)
  rw [if_neg h0] at hargs
  obtain ⟨c1, h3, hargs⟩ := bind_ok hargs
  obtain ⟨c2, h4, hargs⟩ := bind_ok hargs
  obtain ⟨d, h5, hargs⟩ := bind_ok hargs
  obtain ⟨f, h6, hargs⟩ := bind_ok hargs
  obtain ⟨e, h7, hargs⟩ := bind_ok hargs
  obtain ⟨a, h8, hargs⟩ := bind_ok hargs
  have hargs := Except.ok.inj hargs
  subst hargs
  obtain ⟨fwd, hfwd, h⟩ := bind_ok h
  refine ⟨m1, m2, c1, c2, d, f, e, a, fwd, getItem_ok h1, getItem_ok h2, h0, getItem_ok h3, getItem_ok h4, getItem_ok h5,
    getItem_ok h6, getItem_ok h7, getItem_ok h8, hfwd, ?_, ?_⟩
  · intro hb
    have hn : ¬ backwards.getD "no" = "yes" := by
      cases backwards with
      | none => simp
      | some b => simpa using hb
    dsimp only at h
    rw [if_neg hn] at h
    exact (Except.ok.inj h).symm
  · rintro rfl
    dsimp only at h
    rw [if_pos (show (some "yes").getD "no" = "yes" from rfl)] at h
    obtain ⟨bwd, hb, h⟩ := bind_ok h
    exact ⟨bwd, hb, h⟩

/-! ### ESIGMAHM -/

theorem foldl_set_get {V : Type} : ∀ (l : Dict String V) (acc : Dict String V) (k : String), (∀ p ∈ l, p.1 ≠ k) →
    (l.foldl (fun (acc : Dict String V) p => acc.set p.1 p.2) acc).get? k = acc.get? k
  | [], _, _, _ => rfl
  | p :: l, acc, k, h => by
    rw [List.foldl_cons, foldl_set_get l _ k (fun q hq => h q (List.mem_cons_of_mem _ hq)), Dict.get?_set,
      if_neg (fun e => h p List.mem_cons_self e.symm)]

theorem get?_append_args {V : Type} : ∀ (d e : Dict String V) (k : String),
    Dict.get? (d ++ e) k = (Dict.get? d k).or (Dict.get? e k)
  | [], _, _ => rfl
  | (k', v) :: d, e, k => by
    rw [List.cons_append, Dict.get?_cons, Dict.get?_cons, get?_append_args d e k]
    split <;> rfl

theorem get?_mem_args {V : Type} : ∀ {d : Dict String V} {k : String} {v : V}, Dict.get? d k = some v → (k, v) ∈ d
  | (k', w) :: d, k, v, h => by
    rw [Dict.get?_cons] at h
    by_cases e : k = k'
    · rw [if_pos e] at h
      cases h
      rw [e]
      exact List.mem_cons_self
    · rw [if_neg e] at h
      exact List.mem_cons_of_mem _ (get?_mem_args h)

theorem foldl_set_over {V : Type} : ∀ (l acc : Dict String V) (k : String),
    Dict.get? (l.foldl (fun (acc : Dict String V) p => acc.set p.1 p.2) acc) k = (Dict.get? l.reverse k).or (acc.get? k)
  | [], _, _ => rfl
  | p :: l, acc, k => by
    rw [List.foldl_cons, foldl_set_over l, Dict.get?_set, List.reverse_cons, get?_append_args]
    cases hl : Dict.get? l.reverse k with
    | some h => rfl
    | none =>
      obtain ⟨k', v⟩ := p
      rw [Dict.get?_cons]
      by_cases h : k = k'
      · rw [if_pos h, if_pos h]; rfl
      · rw [if_neg h, if_neg h]; rfl

/-- **C101, ESIGMAHM.**  Unless replaced by the caller's extra arguments, masses, spins, frequencies, distance, eccentricity and mean
anomaly are the sample's, the step is 1/2048, and only the (2, 2) mode is asked for, without its conjugate; what the caller gives
replaces these (a repeated name: the last one), and no other argument is passed.  The times returned are those of the (2, 2) mode and
every mode is returned. -/
theorem C101_esigma {run : Dict String (Arg K) → Py (Dict LM (List K × List C))} {params : Dict String K}
    {extra : Option (Dict String (Arg K))} {t : List K} {hlm : Dict LM (List C)} (h : esigma run params extra = .ok (t, hlm)) :
    ∃ args out, run args = .ok out ∧ (∃ h22, out.get? (2, 2) = some (t, h22) ∧ hlm.get? (2, 2) = some h22) ∧
      (∀ k, hlm.get? k = (out.get? k).map Prod.snd) ∧
      (∀ name arg, (name, arg) ∈ [("mass_1", "mass1"), ("mass_2", "mass2"), ("spin_1z", "spin1z"), ("spin_2z", "spin2z"),
          ("minimum_frequency", "f_lower"), ("reference_frequency", "f_ref"), ("luminosity_distance", "distance"),
          ("eccentricity", "eccentricity"), ("mean_anomaly", "mean_anomaly")] →
        ∃ x, params.get? name = some x ∧
          ((∀ p ∈ extra.getD [], p.1 ≠ arg) → args.get? arg = some (.num x))) ∧
      (∀ arg v, (arg, v) ∈ [("delta_t", Arg.num (1 / 2048)), ("modes_to_use", .modes [(2, 2)]),
          ("include_conjugate_modes", .flag false)] →
        (∀ p ∈ extra.getD [], p.1 ≠ arg) → args.get? arg = some v) ∧
      (∀ arg v, Dict.get? (extra.getD []).reverse arg = some v → args.get? arg = some v) ∧
      ∀ arg v, args.get? arg = some v → arg ∈ ["mass1", "mass2", "spin1z", "spin2z", "delta_t", "f_lower", "f_ref", "distance",
        "modes_to_use", "include_conjugate_modes", "eccentricity", "mean_anomaly"] ∨ ∃ w, (arg, w) ∈ extra.getD [] := by
  unfold esigma at h
  obtain ⟨args, hargs, h⟩ := bind_ok h
  obtain ⟨out, hout, h⟩ := bind_ok h
  obtain ⟨h22, hh, h⟩ := bind_ok h
  have h := Except.ok.inj h
  cases h
  have hmap : ∀ k, Dict.get? (out.map fun p => (p.1, p.2.2)) k = (out.get? k).map Prod.snd := by
    exact get?_mapVal Prod.snd out
  refine ⟨args, out, hout, ⟨h22.2, getItem_ok hh, ?_⟩, hmap, ?_⟩
  · rw [hmap, getItem_ok hh]; rfl
  unfold esigmaArgs at hargs
  obtain ⟨x1, h1, hargs⟩ := bind_ok hargs
  obtain ⟨x2, h2, hargs⟩ := bind_ok hargs
  obtain ⟨x3, h3, hargs⟩ := bind_ok hargs
  obtain ⟨x4, h4, hargs⟩ := bind_ok hargs
  obtain ⟨x5, h5, hargs⟩ := bind_ok hargs
  obtain ⟨x6, h6, hargs⟩ := bind_ok hargs
  obtain ⟨x7, h7, hargs⟩ := bind_ok hargs
  obtain ⟨x8, h8, hargs⟩ := bind_ok hargs
  obtain ⟨x9, h9, hargs⟩ := bind_ok hargs
  have hargs := Except.ok.inj hargs
  refine ⟨?_, ?_, ?_, ?_⟩
  case refine_2 =>
    intro arg v hmem hno
    simp only [List.mem_cons, Prod.mk.injEq, List.not_mem_nil, or_false] at hmem
    rw [← hargs, foldl_set_get _ _ _ hno]
    rcases hmem with ⟨rfl, rfl⟩ | ⟨rfl, rfl⟩ | ⟨rfl, rfl⟩ <;> rfl
  case refine_3 =>
    intro arg v hv
    rw [← hargs, foldl_set_over, hv]
    rfl
  case refine_4 =>
    intro arg v hv
    rw [← hargs, foldl_set_over] at hv
    cases he : Dict.get? (extra.getD []).reverse arg with
    | some w => exact Or.inr ⟨w, List.mem_reverse.mp (get?_mem_args he)⟩
    | none =>
      rw [he, Option.none_or] at hv
      have := get?_mem_args hv
      simp only [List.mem_cons, Prod.mk.injEq, List.not_mem_nil, or_false] at this
      left
      simp only [List.mem_cons, List.not_mem_nil, or_false]
      tauto
  intro name arg hmem
  simp only [List.mem_cons, Prod.mk.injEq, List.not_mem_nil, or_false] at hmem
  rcases hmem with ⟨rfl, rfl⟩ | ⟨rfl, rfl⟩ | ⟨rfl, rfl⟩ | ⟨rfl, rfl⟩ | ⟨rfl, rfl⟩ | ⟨rfl, rfl⟩ | ⟨rfl, rfl⟩ | ⟨rfl, rfl⟩ |
    ⟨rfl, rfl⟩
  · exact ⟨x1, getItem_ok h1, fun hno => by rw [← hargs, foldl_set_get _ _ _ hno]; rfl⟩
  · exact ⟨x2, getItem_ok h2, fun hno => by rw [← hargs, foldl_set_get _ _ _ hno]; rfl⟩
  · exact ⟨x3, getItem_ok h3, fun hno => by rw [← hargs, foldl_set_get _ _ _ hno]; rfl⟩
  · exact ⟨x4, getItem_ok h4, fun hno => by rw [← hargs, foldl_set_get _ _ _ hno]; rfl⟩
  · exact ⟨x5, getItem_ok h5, fun hno => by rw [← hargs, foldl_set_get _ _ _ hno]; rfl⟩
  · exact ⟨x6, getItem_ok h6, fun hno => by rw [← hargs, foldl_set_get _ _ _ hno]; rfl⟩
  · exact ⟨x7, getItem_ok h7, fun hno => by rw [← hargs, foldl_set_get _ _ _ hno]; rfl⟩
  · exact ⟨x8, getItem_ok h8, fun hno => by rw [← hargs, foldl_set_get _ _ _ hno]; rfl⟩
  · exact ⟨x9, getItem_ok h9, fun hno => by rw [← hargs, foldl_set_get _ _ _ hno]; rfl⟩

/-! ### SEOBNRv4EHM -/

/-- A file holds a part of what was computed. -/
def PartOf (f : ModeFile K C) (t : List K) (hlm : Dict LM (List C)) : Prop :=
  (∀ t', f.time = some t' → t' = t) ∧ ∀ k h, f.strain.get? k = some h → hlm.get? k = some h

theorem go_part {t : List K} {hlm : Dict LM (List C)} : ∀ (ks : List LM) (f : ModeFile K C), PartOf f t hlm →
    ∀ f' ∈ (saveStates.go hlm ks f).1, PartOf f' t hlm
  | [], _, _, f', hm => by simp [saveStates.go] at hm
  | k :: ks, f, hf, f', hm => by
    unfold saveStates.go at hm
    cases hk : hlm.get? k with
    | none => rw [hk] at hm; simp at hm
    | some h =>
      rw [hk] at hm
      dsimp only at hm
      have hpart : PartOf ({ f with strain := f.strain.set k h } : ModeFile K C) t hlm := by
        refine ⟨hf.1, ?_⟩
        intro k' h' hh
        dsimp only at hh
        rw [Dict.get?_set] at hh
        by_cases e : k' = k
        · rw [if_pos e] at hh
          rw [e, hk]; exact hh
        · rw [if_neg e] at hh
          exact hf.2 k' h' hh
      rcases List.mem_cons.mp hm with rfl | hm
      · exact hpart
      · exact go_part ks _ hpart f' hm

theorem saveStates_part {t : List K} {hlm : Dict LM (List C)} {f : ModeFile K C} (h : f ∈ (saveStates t hlm).1) :
    PartOf f t hlm := by
  unfold saveStates at h
  dsimp only at h
  have h0 : PartOf (⟨some t, []⟩ : ModeFile K C) t hlm := ⟨fun t' h => (Option.some.inj h).symm, fun k h hh => by cases hh⟩
  rcases List.mem_cons.mp h with rfl | h
  · exact ⟨(fun t' h => by cases h), (fun k h hh => by cases hh)⟩
  rcases List.mem_cons.mp h with rfl | h
  · exact h0
  · exact go_part _ _ h0 f h

theorem reached_part [FloorRing K] {lib : SeobLib K C} {dir : ModeDir K C} (h : Reached lib dir) :
    ∀ key f, dir.get? key = some f → ∃ a t hlm, seobKey a = .ok key ∧ compute lib a = .ok (t, hlm) ∧ PartOf f t hlm := by
  induction h with
  | empty => intro key f h; cases h
  | more _ hm ih =>
    rename_i dir dir' a save hr
    unfold getModes at hm
    cases hkey : seobKey a with
    | error e => rw [hkey] at hm; simp at hm
    | ok key' =>
      rw [hkey] at hm
      dsimp only at hm
      cases hd : dir.get? key' with
      | some f => rw [hd] at hm; simp at hm
      | none =>
        rw [hd] at hm
        dsimp only at hm
        cases hc : compute lib a with
        | error e => rw [hc] at hm; simp at hm
        | ok r =>
          obtain ⟨t, hlm⟩ := r
          rw [hc] at hm
          dsimp only at hm
          cases save with
          | false => simp at hm
          | true =>
            rw [if_pos rfl] at hm
            obtain ⟨f', hf', rfl⟩ := List.mem_map.mp hm
            intro key f hf
            rw [Dict.get?_set] at hf
            by_cases e : key = key'
            · rw [if_pos e] at hf
              cases hf
              exact ⟨a, t, hlm, by rw [hkey, e], hc, saveStates_part hf'⟩
            · rw [if_neg e] at hf
              exact ih key f hf

theorem readFile_ok {f : ModeFile K C} {t : List K} {hlm : Dict LM (List C)} (h : readFile f = .ok (t, hlm)) :
    f.time = some t ∧ ∀ k ∈ modeList, ∃ x, f.strain.get? k = some x ∧ hlm.get? k = some x := by
  unfold readFile at h
  cases ht : f.time with
  | none => rw [ht] at h; exact absurd h (by simp)
  | some t' =>
    rw [ht] at h
    dsimp only at h
    obtain ⟨d, hd, h⟩ := bind_ok h
    have h := Except.ok.inj h
    cases h
    refine ⟨rfl, ?_⟩
    unfold modeList at hd
    simp only [List.foldlM_cons, List.foldlM_nil] at hd
    obtain ⟨d1, e1, hd⟩ := bind_ok hd
    obtain ⟨x1, g1, e1⟩ := bind_ok e1
    have e1 := Except.ok.inj e1
    obtain ⟨d2, e2, hd⟩ := bind_ok hd
    obtain ⟨x2, g2, e2⟩ := bind_ok e2
    have e2 := Except.ok.inj e2
    obtain ⟨d3, e3, hd⟩ := bind_ok hd
    obtain ⟨x3, g3, e3⟩ := bind_ok e3
    have e3 := Except.ok.inj e3
    obtain ⟨d4, e4, hd⟩ := bind_ok hd
    obtain ⟨x4, g4, e4⟩ := bind_ok e4
    have e4 := Except.ok.inj e4
    have hd := Except.ok.inj hd
    subst hd e4 e3 e2 e1
    intro k hk
    simp only [modeList, List.mem_cons, List.not_mem_nil, or_false] at hk
    rcases hk with rfl | rfl | rfl | rfl
    · exact ⟨x1, getItem_ok g1, by simp [Dict.get?_set]⟩
    · exact ⟨x2, getItem_ok g2, by simp [Dict.get?_set]⟩
    · exact ⟨x3, getItem_ok g3, by simp [Dict.get?_set]⟩
    · exact ⟨x4, getItem_ok g4, by simp [Dict.get?_set]⟩

theorem seobKey_eq [FloorRing K] {a b : SeobArgs K} {key : SeobKey K} (ha : seobKey a = .ok key) (hb : seobKey b = .ok key) :
    { a with deltaT := b.deltaT } = b ∧ trunc (1 / a.deltaT) = trunc (1 / b.deltaT) := by
  unfold seobKey at ha hb
  by_cases h1 : a.deltaT = 0
  · rw [if_pos h1] at ha; exact absurd ha (by simp)
  by_cases h2 : b.deltaT = 0
  · rw [if_pos h2] at hb; exact absurd hb (by simp)
  rw [if_neg h1] at ha
  rw [if_neg h2] at hb
  have ha := Except.ok.inj ha
  have hb := Except.ok.inj hb
  rw [← hb] at ha
  injection ha with h3 h4
  refine ⟨?_, h4⟩
  cases a; cases b
  simp only [SeobArgs.mk.injEq] at h3 ⊢
  tauto

/-- **C101, modes kept in files.**  Whatever calls came before and wherever they were killed, a call that returns gives the times
and modes computed for the same arguments, except that the step may be another one with the same whole number of samples per unit of
time. -/
theorem C101_files_partial [FloorRing K] {lib : SeobLib K C} {dir : ModeDir K C} (hr : Reached lib dir) {a : SeobArgs K} {save : Bool}
    {t : List K} {hlm : Dict LM (List C)} (h : (getModes lib a save dir).2 = .ok (t, hlm)) :
    ∃ dt hlm', trunc (1 / dt) = trunc (1 / a.deltaT) ∧ compute lib { a with deltaT := dt } = .ok (t, hlm') ∧
      ∀ k ∈ modeList, hlm.get? k = hlm'.get? k := by
  unfold getModes at h
  cases hkey : seobKey a with
  | error e => rw [hkey] at h; exact absurd h (by simp)
  | ok key =>
    rw [hkey] at h
    dsimp only at h
    cases hd : dir.get? key with
    | some f =>
      rw [hd] at h
      dsimp only at h
      obtain ⟨a', t', hlm', ha', hc, hp1, hp2⟩ := reached_part hr key f hd
      obtain ⟨ht, hm⟩ := readFile_ok h
      obtain ⟨e1, e2⟩ := seobKey_eq hkey ha'
      rw [← hp1 t ht] at hc
      refine ⟨a'.deltaT, hlm', e2.symm, by rw [e1]; exact hc, ?_⟩
      intro k hk
      obtain ⟨x, hx, hy⟩ := hm k hk
      rw [hy, hp2 k x hx]
    | none =>
      rw [hd] at h
      dsimp only at h
      cases hc : compute lib a with
      | error e => rw [hc] at h; exact absurd h (by simp)
      | ok r =>
        obtain ⟨t', hlm'⟩ := r
        rw [hc] at h
        dsimp only at h
        have hout : (t', hlm') = (t, hlm) := by
          cases save with
          | false =>
            rw [if_neg (by simp)] at h
            exact Except.ok.inj h
          | true =>
            rw [if_pos rfl] at h
            dsimp only at h
            cases hs : (saveStates t' hlm').2 with
            | error e => rw [hs] at h; exact absurd h (by simp [Except.map])
            | ok u => rw [hs] at h; exact Except.ok.inj h
        cases hout
        exact ⟨a.deltaT, hlm, rfl, hc, fun _ _ => rfl⟩

/-- **C101, units of the modes computed.**  Times are the multiples of the step, one for each sample of the last mode used;
dimensionless output is the physical one with times divided by the mass in seconds and strains multiplied by the distance over the
mass. -/
theorem C101_units [FloorRing K] {lib : SeobLib K C} {a : SeobArgs K} (hd : 0 < a.deltaT) {t t' : List K} {hlm hlm' : Dict LM (List C)}
    (h : compute lib { a with physicalUnits := true } = .ok (t, hlm)) (hs : ∀ b, lib.series { a with physicalUnits := b } = lib.series a)
    (h' : compute lib { a with physicalUnits := false } = .ok (t', hlm')) :
    EvenFrom0 t a.deltaT ∧ (∃ s4, t.length = List.length (α := C) s4 ∧ ∃ k, hlm.get? k = some s4) ∧
      t' = t.map (fun x => x / (a.mFed * lib.mtsun)) ∧
      ∀ k, hlm'.get? k = (hlm.get? k).map fun h => h.map (lib.smul (a.dMpc * 1000000 * lib.pc / (lib.c * (a.mFed * lib.mtsun)))) := by
  unfold compute at h h'
  rw [hs] at h h'
  obtain ⟨s, hss, h⟩ := bind_ok h
  obtain ⟨s', hss', h'⟩ := bind_ok h'
  rw [hss] at hss'
  cases hss'
  match s, h, h' with
  | [], h, _ => exact absurd h (by simp)
  | [_], h, _ => exact absurd h (by simp)
  | [_, _], h, _ => exact absurd h (by simp)
  | [_, _, _], h, _ => exact absurd h (by simp)
  | [_, _, _, _], h, _ => exact absurd h (by simp)
  | s0 :: s1 :: s2 :: s3 :: s4 :: rest, h, h' =>
    dsimp only at h h'
    obtain ⟨u, hu, h⟩ := bind_ok h
    obtain ⟨u', hu', h'⟩ := bind_ok h'
    rw [hu] at hu'
    cases hu'
    rw [if_pos rfl] at h
    rw [if_neg (by simp)] at h'
    by_cases hz : a.mFed * lib.mtsun = 0
    · rw [if_pos hz] at h'; exact absurd h' (by simp)
    rw [if_neg hz] at h'
    have h := Except.ok.inj h
    have h' := Except.ok.inj h'
    cases h
    cases h'
    unfold arange at hu
    rw [if_neg hd.ne'] at hu
    have hu := Except.ok.inj hu
    have hlen : ⌈((s4.2.length : K) * a.deltaT - 0) / a.deltaT⌉.toNat = s4.2.length := by
      rw [sub_zero, mul_div_assoc, div_self hd.ne', mul_one]
      simp
    refine ⟨?_, ⟨s4.2, ?_, s4.1, ?_⟩, rfl, ?_⟩
    · intro k x hx
      rw [← hu, List.getElem?_map] at hx
      cases hk : (List.range ⌈((s4.2.length : K) * a.deltaT - 0) / a.deltaT⌉.toNat)[k]? with
      | none => rw [hk] at hx; cases hx
      | some n =>
        rw [hk] at hx
        have hx := Option.some.inj hx
        have : n = k := by
          have := List.getElem?_eq_some_iff.mp hk
          obtain ⟨h1, h2⟩ := this
          rw [← h2, List.getElem_range]
        rw [← hx, this]
        simp only [zero_add]
    · rw [← hu, List.length_map, List.length_range, hlen]
    · rw [Dict.get?_set, if_pos rfl]
    · intro k
      exact get?_mapVal (List.map (lib.smul (a.dMpc * 1000000 * lib.pc / (lib.c * (a.mFed * lib.mtsun))))) _ k

/-- **C101, SEOBNRv4EHM: what is simulated and what is kept of it.**  The two masses handed to the simulation have the mass ratio and the
total mass asked for, in kilograms, the distance is the one asked for, in metres, and step, frequency, spins, eccentricity and anomaly are
the caller's.  If the simulation gives its modes in the order the code counts on, the (2, 2), (3, 3), (4, 4) and (5, 5) modes are
returned as simulated and the (2, 1) mode is not, with a time for each sample of the (2, 2) mode. -/
theorem C101_simulated [FloorRing K] {lib : SeobLib K C} {msun pc : K} {sim : SphtArgs K → Py (List (LM × List C))}
    (hl : lib.series = sphtseries msun pc sim) {a : SeobArgs K} (hd : 0 < a.deltaT) (hp : a.physicalUnits = true) {t : List K}
    {hlm : Dict LM (List C)} (h : compute lib a = .ok (t, hlm)) :
    ∃ m1 m2 s, m1 + m2 = a.mFed ∧ m1 = a.q * m2 ∧
      sim ⟨a.deltaT, m1 * msun, m2 * msun, a.fMin, a.dMpc * 1000000 * pc, a.chi1, a.chi2, a.ecc, a.ano, a.eccIC⟩ = .ok s ∧
      (s.map Prod.fst = [(5, 5), (4, 4), (2, 1), (3, 3), (2, 2)] →
        (∀ k ∈ [((2, 2) : LM), (3, 3), (4, 4), (5, 5)], ∃ v, (k, v) ∈ s ∧ hlm.get? k = some v) ∧ hlm.get? (2, 1) = none ∧
        ∃ h22, hlm.get? (2, 2) = some h22 ∧ t.length = h22.length) := by
  unfold compute at h
  obtain ⟨s, hs, h⟩ := bind_ok h
  rw [hl] at hs
  unfold sphtseries at hs
  by_cases hq : 1 + a.q = 0
  · rw [if_pos hq] at hs; cases hs
  rw [if_neg hq] at hs
  dsimp only at hs
  rw [← mul_assoc a.dMpc] at hs
  refine ⟨_, _, s, ?_, ?_, hs, ?_⟩
  · field_simp
    ring
  · ring
  intro hk
  match s, h, hk with
  | [], _, hk => exact absurd hk (by simp)
  | [_], _, hk => exact absurd hk (by simp)
  | [_, _], _, hk => exact absurd hk (by simp)
  | [_, _, _], _, hk => exact absurd hk (by simp)
  | [_, _, _, _], _, hk => exact absurd hk (by simp)
  | _ :: _ :: _ :: _ :: _ :: _ :: _, _, hk => simp at hk
  | [(k0, v0), (k1, v1), (k2, v2), (k3, v3), (k4, v4)], h, hk =>
    simp only [List.map_cons, List.map_nil, List.cons.injEq, and_true] at hk
    obtain ⟨rfl, rfl, rfl, rfl, rfl⟩ := hk
    dsimp only at h
    obtain ⟨u, hu, h⟩ := bind_ok h
    rw [if_pos hp] at h
    have h := Except.ok.inj h
    cases h
    unfold arange at hu
    rw [if_neg hd.ne'] at hu
    have hu := Except.ok.inj hu
    have hlen : ⌈((v4.length : K) * a.deltaT - 0) / a.deltaT⌉.toNat = v4.length := by
      rw [sub_zero, mul_div_assoc, div_self hd.ne', mul_one]
      simp
    refine ⟨?_, rfl, v4, rfl, ?_⟩
    · intro k hk
      simp only [List.mem_cons, List.not_mem_nil, or_false] at hk
      rcases hk with rfl | rfl | rfl | rfl
      · exact ⟨v4, by simp, rfl⟩
      · exact ⟨v3, by simp, rfl⟩
      · exact ⟨v1, by simp, rfl⟩
      · exact ⟨v0, by simp, rfl⟩
    · rw [← hu, List.length_map, List.length_range, hlen]

/-- **C101, files that were not finished.**  If the modes can be computed, a call that saves them can be killed such that every later
call with these arguments raises, whether it saves or not, without repairing the file. -/
theorem C101_unfinished_violation [FloorRing K] {lib : SeobLib K C} {a : SeobArgs K} (hd : a.deltaT ≠ 0) {r : List K × Dict LM (List C)}
    (hc : compute lib a = .ok r) :
    ∃ dir ∈ (getModes lib a true []).1, ∀ save, getModes lib a save dir = ([], .error .keyError) := by
  have hkey : seobKey a = .ok ⟨{ a with deltaT := 0 }, trunc (1 / a.deltaT)⟩ := if_neg hd
  refine ⟨Dict.set [] ⟨{ a with deltaT := 0 }, trunc (1 / a.deltaT)⟩ ⟨none, []⟩, ?_, ?_⟩
  · unfold getModes
    rw [hkey, hc]
    dsimp only [Dict.get?, List.find?]
    exact List.mem_map.mpr ⟨⟨none, []⟩, by unfold saveStates; exact List.mem_cons_self, rfl⟩
  · intro save
    unfold getModes
    rw [hkey]
    dsimp only
    rw [Dict.get?_set, if_pos rfl]
    rfl

end GwEcc.Gen

namespace GwEcc.Gen.Demo

open Load

def fwd : Evolution ℚ := ⟨[0, 1, 2], [5, 6, 7], [0, 2, 4]⟩

/-- Backwards in time the phase decreases. -/
def bwd : Evolution ℚ := ⟨[0, 1, 2, 3], [5, 4, 3, 2], [0, -2, -4, -6]⟩

/-- The same with phases between -3 and 3 (`pi` is 3 here). -/
def wrapped : Evolution ℚ := { bwd with phase := [0, -2, 2, 0] }

example : join 3 fwd bwd = .ok ⟨[0, 1, 2, 3, 4, 5], [2, 3, 4, 5, 6, 7], [-6, -4, -2, 0, 2, 4]⟩ := by decide +kernel

example : fwd.HasLength 3 ∧ bwd.HasLength 4 := ⟨⟨rfl, rfl, rfl⟩, rfl, rfl, rfl⟩

example : EvenFrom0 bwd.t 1 := by
  intro k x h
  match k, h with
  | 0, h => simpa [bwd] using h.symm
  | 1, h => simpa [bwd] using h.symm
  | 2, h => simpa [bwd] using h.symm
  | 3, h => simpa [bwd] using h.symm
  | k + 4, h => simp [bwd] at h

/-- **C101 is false of the code for a backward evolution whose phase is given modulo `2 pi`**: although the two phases agree at the
common point, the joined phase jumps there by a multiple of `2 pi` (here 6), since unwrapping starts at the far end; without the
wrapping it would not. -/
theorem C101_jump_violation :
    (∀ (i : ℕ) (x y : ℚ), wrapped.phase[i]? = some x → bwd.phase[i]? = some y → ∃ k : ℤ, x = y + 2 * 3 * k) ∧
    wrapped.phase[0]? = fwd.phase[0]? ∧
    join 3 fwd wrapped = .ok ⟨[0, 1, 2, 3, 4, 5], [2, 3, 4, 5, 6, 7], [0, 2, 4, 6, 2, 4]⟩ := by
  refine ⟨?_, by decide +kernel, by decide +kernel⟩
  intro i x y hx hy
  match i, hx, hy with
  | 0, hx, hy => exact ⟨0, by simp [wrapped, bwd] at hx hy; subst hx hy; norm_num⟩
  | 1, hx, hy => exact ⟨0, by simp [wrapped, bwd] at hx hy; subst hx hy; norm_num⟩
  | 2, hx, hy => exact ⟨1, by simp [wrapped, bwd] at hx hy; subst hx hy; norm_num⟩
  | 3, hx, hy => exact ⟨1, by simp [wrapped, bwd] at hx hy; subst hx hy; norm_num⟩
  | i + 4, hx, hy => simp [wrapped, bwd] at hx

def sample : Dict String ℚ := [("mass_1", 6), ("mass_2", 3), ("spin_1z", 0), ("spin_2z", 0), ("luminosity_distance", 1),
  ("minimum_frequency", 20), ("reference_frequency", 30), ("eccentricity", 1 / 10), ("mean_per_ano", 1), ("mean_anomaly", 2)]

example : teob 3 (fun a => .ok (if a.backwards = some "yes" ∧ a.odeTmax = some 1 ∧ a.q = 2 then bwd else fwd)) sample (some "yes")
    none = join 3 fwd bwd := by decide +kernel

example : esigma (fun a => if a.get? "f_lower" = some (.num (20 : ℚ)) then .ok [((2, 2), ([0, 1], [5, 6]))] else .error .keyError) sample
    (some [("delta_t", .num 1)]) = .ok ([0, 1], [((2, 2), [5, 6])]) := by decide +kernel

def seob : SeobLib ℚ ℚ where
  mtsun := 2
  c := 1
  pc := 1
  smul := fun a b => a * b
  series := fun a => .ok [((5, 5), [1, 1]), ((4, 4), [2, 2]), ((2, 1), [3, 3]), ((3, 3), [4, 4]), ((2, 2), [a.q, a.deltaT])]

def args (dt : ℚ) : SeobArgs ℚ where
  q := 7
  chi1 := 0
  chi2 := 0
  ecc := 0
  ano := 0
  fMin := 20
  mFed := 50
  deltaT := dt
  eccIC := 0
  dMpc := 500
  approx := "SEOBNRv4EHM_opt"
  physicalUnits := true

/-- C101's simulation on a concrete case: mass ratio 7 and total mass 50 with solar mass 4. -/
def simulated : SeobLib ℚ ℚ := { seob with
  series := sphtseries 4 1 fun x => .ok [((5, 5), [1, 1]), ((4, 4), [2, 2]), ((2, 1), [3, 3]), ((3, 3), [4, 4]), ((2, 2), [x.m1, x.m2])] }

example : (compute simulated (args (1 / 2))).toOption.map (fun r => (r.1, r.2.get? (2, 2))) = some ([0, 1 / 2], some [175, 25]) := by
  decide +kernel

/-- **C101 is false of the code for the step**: after a call with step 1/2, a call with step 2/5 (also 2 whole samples per unit of time)
returns times and modes with step 1/2. -/
theorem C101_step_violation :
    ∃ dir, (getModes seob (args (1 / 2)) true []).1.getLast? = some dir ∧ Reached seob dir ∧
      ((getModes seob (args (2 / 5)) true dir).2.toOption.map fun r => (r.1, r.2.get? (2, 2))) =
        some ([0, 1 / 2], some [7, 1 / 2]) ∧
      ((compute seob (args (2 / 5))).toOption.map fun r => (r.1, r.2.get? (2, 2))) = some ([0, 2 / 5], some [7, 2 / 5]) := by
  refine ⟨Dict.set [] ⟨args 0, 2⟩ ⟨some [0, 1 / 2], [((2, 2), [7, 1 / 2]), ((3, 3), [4, 4]), ((4, 4), [2, 2]), ((5, 5), [1, 1])]⟩,
    by decide +kernel, ?_, by decide +kernel, by decide +kernel⟩
  exact Reached.more (a := args (1 / 2)) (save := true) Reached.empty (by decide +kernel)

example : (compute seob { args 1 with physicalUnits := false }).toOption.map (fun r => r.1) = some [0, 1 / 100] := by decide +kernel

end GwEcc.Gen.Demo
