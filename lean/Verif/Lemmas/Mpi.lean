import Verif.Lemmas.MpiStore
import Mathlib.Algebra.Order.Group.Multiset
import Mathlib.Algebra.Order.BigOperators.Group.Finset
import Mathlib.Algebra.BigOperators.Group.Finset.Basic
import Mathlib.Data.Fintype.Basic
import Mathlib.Tactic.Abel

/-!
# Invariant of the master/worker system
-/

set_option linter.unusedSectionVars false

namespace GwEcc.Mpi

open Finset

variable {Idx P V : Type} [DecidableEq Idx] {W : ℕ}

/-- The result of one sample. -/
def resOf (job : Job Idx P V) (x : Idx × P) : Idx × V := (x.1, job.value x.1 x.2)

/-- Results a message will lead to. -/
def msgHold (job : Job Idx P V) : Msg Idx P → Multiset (Idx × V)
  | .stop => 0
  | .batch b => ↑(b.map (resOf job))

/-- Results being computed. -/
def modeHold (job : Job Idx P V) : Mode Idx P → Multiset (Idx × V)
  | .computing b => ↑(b.map (resOf job))
  | _ => 0

/-- Results that are in flight at a worker. -/
def hold (job : Job Idx P V) (wk : Worker Idx P V) : Multiset (Idx × V) :=
  (wk.inbox.map (msgHold job)).sum + modeHold job wk.mode + (wk.outbox.map Multiset.ofList).sum

/-- Results received by the master but not yet recorded. -/
def cur : Ctl Idx V W → List (Idx × V)
  | .handle _ r => r
  | _ => []

/-- Results of the samples not yet sent out. -/
def pend (job : Job Idx P V) (items : List (ℕ × Idx × P)) (next : ℕ) : Multiset (Idx × V) :=
  ↑((items.drop next).map fun it => resOf job it.2)

/-- A worker with work. -/
inductive Busy (bs : ℕ) : Worker Idx P V → Prop
  | told (b : List (Idx × P)) (h : 0 < bs → b ≠ []) (hl : b.length ≤ bs) : Busy bs ⟨[.batch b], [], .waiting⟩
  | computing (b : List (Idx × P)) (h : 0 < bs → b ≠ []) (hl : b.length ≤ bs) : Busy bs ⟨[], [], .computing b⟩
  | replied (b : List (Idx × V)) (h : 0 < bs → b ≠ []) (hl : b.length ≤ bs) : Busy bs ⟨[], [b], .waiting⟩

/-- A worker that has been sent its stop message. -/
inductive Ended : Worker Idx P V → Prop
  | told : Ended ⟨[.stop], [], .waiting⟩
  | stopped : Ended ⟨[], [], .stopped⟩

/-- The worker has no message and nothing to do, because the master has not served it yet. -/
def Free : Ctl Idx V W → Fin W → Prop
  | .prime k, w => k ≤ w.val
  | .handle w' _, w => w' = w
  | _, _ => False

/-- The invariant. -/
structure Inv (job : Job Idx P V) (file : Option (List (Idx × V))) (items : List (ℕ × Idx × P)) (bs : ℕ)
    (s : Sys Idx P V W) : Prop where
  all : (↑s.log + ∑ w, hold job (s.workers w)) + ↑(cur s.ctl) + pend job items s.next = pend job items 0
  shape : ∀ w, (Free s.ctl w ∧ s.workers w = freshWorker) ∨
    (¬ Free s.ctl w ∧ (Busy bs (s.workers w) ∨ (Ended (s.workers w) ∧ s.next = items.length)))
  count : s.completed = s.log.length
  le : s.next ≤ items.length
  store : match s.ctl with
    | .prime _ => s.store = recordAll job s.log (initialStore job file)
    | .loop => s.store = recordAll job s.log (initialStore job file)
    | .handle _ _ => s.store = recordAll job s.log (initialStore job file)
    | .finishing => s.store = recordAll job s.log (initialStore job file) ∧ s.log.length = items.length
    | .done => s.store = lastCheckpoint job (recordAll job s.log (initialStore job file)) ∧
        s.log.length = items.length ∧ ∃ t, s.table = some t ∧ saveFinal job s.store.results = .ok t
    | .stopping _ => False
    | .failed => False

theorem sum_update {M : Type} [AddCommMonoid M] (g : Worker Idx P V → M) (ws : Fin W → Worker Idx P V) (w0 : Fin W)
    (x : Worker Idx P V) : ∑ w, g (Function.update ws w0 x w) + g (ws w0) = ∑ w, g (ws w) + g x := by
  rw [← Finset.add_sum_erase univ (fun w => g (Function.update ws w0 x w)) (mem_univ w0),
    ← Finset.add_sum_erase univ (fun w => g (ws w)) (mem_univ w0)]
  have : ∑ w ∈ univ.erase w0, g (Function.update ws w0 x w) = ∑ w ∈ univ.erase w0, g (ws w) := by
    refine Finset.sum_congr rfl fun w hw => ?_
    rw [Function.update_of_ne (Finset.ne_of_mem_erase hw)]
  rw [this]
  simp only [Function.update_self]
  rw [add_comm (g x), add_assoc, add_comm (g (ws w0)) , add_assoc, add_comm (g x), ← add_assoc, add_comm _ (g (ws w0)),
    add_assoc]

/-- Weight of a message, a control state, … used for termination. -/
def msgWt : Msg Idx P → ℕ
  | .stop => 1
  | .batch b => 6 + 2 * b.length

def modeWt : Mode Idx P → ℕ
  | .computing b => 5 + 2 * b.length
  | _ => 0

def wt (wk : Worker Idx P V) : ℕ :=
  (wk.inbox.map msgWt).sum + modeWt wk.mode + (wk.outbox.map fun b => 4 + 2 * b.length).sum

def ctlWt : Ctl Idx V W → ℕ
  | .prime k => 2 * (W - k) + 3
  | .loop => 2
  | .handle _ r => 5 + 2 * r.length
  | .finishing => 1
  | .stopping k => 2 * (W - k) + 1
  | .done => 0
  | .failed => 0

/-- The measure that decreases at every step. -/
def meas (items : List (ℕ × Idx × P)) (s : Sys Idx P V W) : ℕ :=
  10 * (items.length - s.next) + ∑ w, wt (s.workers w) + ctlWt s.ctl

/-- Serving a free worker. -/
theorem feed_spec (job : Job Idx P V) (items : List (ℕ × Idx × P)) (bs : ℕ) (w : Fin W) (s : Sys Idx P V W)
    (hw : s.workers w = freshWorker) (hle : s.next ≤ items.length) :
    ∃ x nx, feed items bs w s = { s with workers := Function.update s.workers w x, next := nx } ∧
      nx ≤ items.length ∧ s.next ≤ nx ∧ (Busy bs x ∨ (Ended x ∧ nx = items.length)) ∧
      hold job x + pend job items nx = pend job items s.next ∧
      (0 < bs → wt x + 10 * (items.length - nx) ≤ 10 * (items.length - s.next) + 1) := by
  unfold feed
  split
  · next hlt =>
    refine ⟨⟨[.batch (((items.take (min (s.next + bs) items.length)).drop s.next).map Prod.snd)], [], .waiting⟩,
      min (s.next + bs) items.length, ?_, by omega, by omega, ?_, ?_, ?_⟩
    · simp only [send, hw, freshWorker, List.nil_append]
    · left
      refine Busy.told _ (fun hbs hnil => ?_) ?_
      · have := congrArg List.length hnil
        simp only [List.length_map, List.length_drop, List.length_take, List.length_nil] at this
        omega
      · simp only [List.length_map, List.length_drop, List.length_take]
        omega
    · simp only [hold, List.map_cons, List.map_nil, List.sum_cons, List.sum_nil, msgHold, modeHold, add_zero, pend,
        Multiset.coe_add, Multiset.coe_eq_coe]
      rw [List.map_map]
      have e : (items.take (min (s.next + bs) items.length)).drop s.next ++ items.drop (min (s.next + bs) items.length)
          = items.drop s.next := by
        conv_rhs => rw [← List.take_append_drop (min (s.next + bs) items.length) items]
        rw [List.drop_append_of_le_length (by rw [List.length_take]; omega)]
      rw [← e, List.map_append]
      rfl
    · intro hbs
      simp only [wt, List.map_cons, List.map_nil, List.sum_cons, List.sum_nil, msgWt, modeWt, List.length_map,
        List.length_drop, List.length_take]
      omega
  · next hlt =>
    have he : s.next = items.length := by omega
    refine ⟨⟨[.stop], [], .waiting⟩, s.next, ?_, by omega, by omega, Or.inr ⟨Ended.told, he⟩, ?_, ?_⟩
    · simp only [send, hw, freshWorker, List.nil_append]
    · simp [hold, msgHold, modeHold]
    · intro _
      simp [wt, msgWt, modeWt]
      omega

theorem hold_fresh (job : Job Idx P V) : hold job freshWorker = 0 := by simp [hold, freshWorker, modeHold]
theorem wt_fresh : wt (freshWorker : Worker Idx P V) = 0 := by simp [wt, freshWorker, modeWt]

theorem valid_held_ne {job : Job Idx P V} (hd : Distinct job) {t : List (Idx × V)} {x : Idx × V} (hx : x ∈ t)
    (hm : x.1 ∈ job.rows.map Prod.fst) : valid (held job t) ≠ [] := by
  obtain ⟨r, hr, he⟩ := List.mem_map.mp hm
  intro hnil
  cases hv : Dict.get? t.reverse r.1 with
  | none =>
    rw [Dict.get?_none_iff] at hv
    apply hv
    unfold Dict.keys
    rw [List.map_reverse, List.mem_reverse, he]
    exact List.mem_map_of_mem hx
  | some v =>
    have : (r.1, v) ∈ valid (held job t) := by
      rw [mem_valid, held_eq hd, List.mem_map]
      exact ⟨r, hr, by rw [hv]; rfl⟩
    rw [hnil] at this
    cases this

theorem lastCheckpoint_results (job : Job Idx P V) (s : Store Idx V) : (lastCheckpoint job s).results = s.results := by
  unfold lastCheckpoint saveCheckpoint
  split
  · rfl
  · split <;> rfl

theorem pend_cast (job : Job Idx P V) (items : List (ℕ × Idx × P)) :
    pend job items 0 = ↑(items.map fun it => resOf job it.2) := by simp [pend]

theorem Inv.mem_log {job : Job Idx P V} {file : Option (List (Idx × V))} {items : List (ℕ × Idx × P)} {bs : ℕ}
    {s : Sys Idx P V W} (h : Inv job file items bs s) {x : Idx × V} (hx : x ∈ s.log ∨ x ∈ cur s.ctl) :
    x ∈ items.map fun it => resOf job it.2 := by
  have h1 := h.all
  rw [pend_cast] at h1
  have h2 : x ∈ (↑(items.map fun it => resOf job it.2) : Multiset (Idx × V)) := by
    rw [← h1]
    simp only [Multiset.mem_add, Multiset.mem_coe]
    tauto
  simpa only [Multiset.mem_coe] using h2

theorem Inv.log_idx {job : Job Idx P V} {file : Option (List (Idx × V))} {items : List (ℕ × Idx × P)} {bs : ℕ}
    {s : Sys Idx P V W} (h : Inv job file items bs s) (hit : ∀ it ∈ items, it.2.1 ∈ job.rows.map Prod.fst)
    {x : Idx × V} (hx : x ∈ s.log ∨ x ∈ cur s.ctl) : x.1 ∈ job.rows.map Prod.fst := by
  obtain ⟨it, hi, rfl⟩ := List.mem_map.mp (h.mem_log hx)
  exact hit it hi

/-- When everything has been recorded nothing is in flight. -/
theorem Inv.drained {job : Job Idx P V} {file : Option (List (Idx × V))} {items : List (ℕ × Idx × P)} {bs : ℕ}
    {s : Sys Idx P V W} (h : Inv job file items bs s) (hl : items.length ≤ s.log.length) :
    s.log.length = items.length ∧ (∀ w, hold job (s.workers w) = 0) ∧ cur s.ctl = [] ∧ s.next = items.length := by
  have h1 := congrArg Multiset.card h.all
  simp only [Multiset.card_add, Multiset.coe_card, pend, List.length_map, List.length_drop, Nat.sub_zero] at h1
  have h2 := h.le
  have hsum : ∑ w, hold job (s.workers w) = 0 := by
    rw [← Multiset.card_eq_zero]; omega
  refine ⟨by omega, fun w => ?_, by rw [← List.length_eq_zero_iff]; omega, by omega⟩
  rw [← Multiset.card_eq_zero]
  have h3 := congrArg Multiset.card hsum
  rw [Multiset.card_sum, Multiset.card_zero, Finset.sum_eq_zero_iff] at h3
  exact h3 w (mem_univ w)

theorem Busy.hold_ne {job : Job Idx P V} {bs : ℕ} {wk : Worker Idx P V} (hb : 0 < bs) (h : Busy bs wk) :
    hold job wk ≠ 0 := by
  cases h with
  | told b hb' _ => simp [hold, msgHold, modeHold, hb' hb]
  | computing b hb' _ => simp [hold, modeHold, hb' hb]
  | replied b hb' _ => simp [hold, modeHold, hb' hb]

variable {job : Job Idx P V} {file : Option (List (Idx × V))} {items : List (ℕ × Idx × P)} {bs : ℕ}

/-- A worker's step preserves the invariant and decreases the measure. -/
theorem worker_inv {s s' : Sys Idx P V W} {w : Fin W} (h : Inv job file items bs s)
    (hs : workerStep job w s = some s') : Inv job file items bs s' ∧ meas items s' < meas items s := by
  -- the general form of a worker's step
  have gen : ∀ x : Worker Idx P V, s' = { s with workers := Function.update s.workers w x } →
      s.workers w ≠ freshWorker →
      (Busy bs (s.workers w) → Busy bs x) → (Ended (s.workers w) → Ended x) → hold job x = hold job (s.workers w) →
      wt x < wt (s.workers w) → Inv job file items bs s' ∧ meas items s' < meas items s := by
    rintro x rfl hnf hb he hh hwt
    have hsumM := sum_update (hold job) s.workers w x
    rw [hh, add_right_cancel_iff] at hsumM
    have hsumN := sum_update wt s.workers w x
    refine ⟨⟨?_, ?_, h.count, h.le, h.store⟩, ?_⟩
    · simp only [hsumM]; exact h.all
    · intro v
      simp only
      by_cases hv : v = w
      · subst hv
        rw [Function.update_self]
        rcases h.shape v with ⟨h1, h2⟩ | ⟨h1, h2 | h2⟩
        · exact absurd h2 hnf
        · exact Or.inr ⟨h1, Or.inl (hb h2)⟩
        · exact Or.inr ⟨h1, Or.inr ⟨he h2.1, h2.2⟩⟩
      · rw [Function.update_of_ne hv]; exact h.shape v
    · simp only [meas] at *
      omega
  unfold workerStep at hs
  simp only at hs
  -- which shape the worker has
  rcases h.shape w with ⟨h1, h2⟩ | ⟨h1, h2 | ⟨h2, h3⟩⟩
  · rw [h2] at hs; simp [freshWorker] at hs
  · generalize hwk : s.workers w = wk at hs h2 gen
    cases h2 with
    | told b hb hl =>
      simp only [Option.some.injEq] at hs
      refine gen _ hs.symm (by simp [freshWorker]) (fun _ => Busy.computing b hb hl) ?_ ?_ ?_
      · intro he; cases he
      · simp [hold, msgHold, modeHold]
      · simp [wt, msgWt, modeWt]
    | computing b hb hl =>
      simp only [Option.some.injEq, List.nil_append] at hs
      refine gen _ hs.symm (by simp [freshWorker]) (fun _ => Busy.replied _ ?_ (by simpa using hl)) ?_ ?_ ?_
      · intro hbs; simpa using hb hbs
      · intro he; cases he
      · simp only [hold, modeHold, List.map_nil, List.sum_nil, List.map_cons, List.sum_cons, add_zero, zero_add]
        rfl
      · simp [wt, modeWt]
    | replied b hb hl => simp at hs
  · generalize hwk : s.workers w = wk at hs h2 gen
    cases h2 with
    | told =>
      simp only [Option.some.injEq] at hs
      refine gen _ hs.symm (by simp [freshWorker]) (fun hb => by cases hb) (fun _ => Ended.stopped) ?_ ?_
      · simp [hold, msgHold, modeHold]
      · simp [wt, msgWt, modeWt]
    | stopped => simp at hs

/-- Serving worker `w` and moving to a control state in which exactly the other workers are free that were free. -/
theorem feed_inv {s : Sys Idx P V W} {w : Fin W} {c : Ctl Idx V W} (h : Inv job file items bs s)
    (hfree : Free s.ctl w) (hcur : cur s.ctl = []) (hcur' : cur c = []) (hc : ∀ v, Free c v ↔ Free s.ctl v ∧ v ≠ w)
    (hst : s.store = recordAll job s.log (initialStore job file))
    (hc' : (∃ k, c = .prime k) ∨ c = .loop) (hwt : ctlWt c + 2 ≤ ctlWt s.ctl) :
    Inv job file items bs { feed items bs w s with ctl := c } ∧
      (0 < bs → meas items { feed items bs w s with ctl := c } < meas items s) := by
  have hw : s.workers w = freshWorker := by
    rcases h.shape w with ⟨_, h2⟩ | ⟨h1, _⟩
    · exact h2
    · exact absurd hfree h1
  obtain ⟨x, nx, hf, h1, h2, h3, h4, h5⟩ := feed_spec job items bs w s hw h.le
  rw [hf]
  have hsumM := sum_update (hold job) s.workers w x
  rw [hw, hold_fresh, add_zero] at hsumM
  have hsumN := sum_update wt s.workers w x
  rw [hw, wt_fresh, add_zero] at hsumN
  refine ⟨⟨?_, ?_, h.count, h1, ?_⟩, ?_⟩
  · simp only [hsumM, hcur']
    have h6 := h.all
    rw [hcur, ← h4] at h6
    rw [← h6]
    abel
  · intro v
    simp only
    by_cases hv : v = w
    · subst hv
      rw [Function.update_self]
      exact Or.inr ⟨fun hh => ((hc v).mp hh).2 rfl, h3⟩
    · rw [Function.update_of_ne hv]
      rcases h.shape v with ⟨g1, g2⟩ | ⟨g1, g2⟩
      · exact Or.inl ⟨(hc v).mpr ⟨g1, hv⟩, g2⟩
      · refine Or.inr ⟨fun hh => g1 ((hc v).mp hh).1, ?_⟩
        rcases g2 with g2 | ⟨g2, g3⟩
        · exact Or.inl g2
        · exact Or.inr ⟨g2, by omega⟩
  · rcases hc' with ⟨k, rfl⟩ | rfl <;> exact hst
  · intro hbs
    have := h5 hbs
    simp only [meas]
    omega

/-- A step of the master preserves the invariant and decreases the measure. -/
theorem master_inv {s s' : Sys Idx P V W} {src : Fin W} (hd : Distinct job)
    (hit : ∀ it ∈ items, it.2.1 ∈ job.rows.map Prod.fst) (hne : items ≠ [])
    (h : Inv job file items bs s) (hs : masterStep job items bs src s = some s') :
    Inv job file items bs s' ∧ (0 < bs → meas items s' < meas items s) := by
  unfold masterStep at hs
  split at hs
  · -- prime
    next k hk =>
    have hst : s.store = recordAll job s.log (initialStore job file) := by have := h.store; rw [hk] at this; exact this
    split at hs
    · next hlt =>
      injection hs with hs; subst hs
      refine feed_inv h (by rw [hk]; exact le_rfl) (by rw [hk]; rfl) rfl (fun v => ?_) hst (Or.inl ⟨_, rfl⟩) ?_
      · rw [hk]
        simp only [Free, ne_eq, Fin.ext_iff]
        omega
      · rw [hk]; simp only [ctlWt]; omega
    · next hlt =>
      injection hs with hs; subst hs
      refine ⟨⟨?_, ?_, h.count, h.le, hst⟩, ?_⟩
      · have := h.all; rw [hk] at this; exact this
      · intro v
        rcases h.shape v with ⟨g1, _⟩ | ⟨_, g2⟩
        · rw [hk] at g1
          simp only [Free] at g1
          omega
        · exact Or.inr ⟨fun hh => hh, g2⟩
      · intro _; simp only [meas, hk, ctlWt]; omega
  · -- loop
    next hk =>
    have hst : s.store = recordAll job s.log (initialStore job file) := by have := h.store; rw [hk] at this; exact this
    split at hs
    · split at hs
      · cases hs
      · next b rest ho =>
        injection hs with hs; subst hs
        have hsh : s.workers src = ⟨[], [b], .waiting⟩ ∧ (0 < bs → b ≠ []) ∧ rest = [] := by
          rcases h.shape src with ⟨g1, _⟩ | ⟨_, g2 | ⟨g2, _⟩⟩
          · rw [hk] at g1; exact g1.elim
          · generalize hwk : s.workers src = wk at g2 ho
            cases g2 with
            | told => simp at ho
            | computing => simp at ho
            | replied b' hb hl =>
              simp only [List.cons.injEq] at ho
              obtain ⟨rfl, rfl⟩ := ho
              exact ⟨rfl, hb, rfl⟩
          · generalize hwk : s.workers src = wk at g2 ho
            cases g2 <;> simp at ho
        obtain ⟨hw, hb, rfl⟩ := hsh
        have hnew : ({ s.workers src with outbox := [] } : Worker Idx P V) = freshWorker := by rw [hw]; rfl
        rw [hnew]
        have hsumM := sum_update (hold job) s.workers src freshWorker
        rw [hw, hold_fresh, add_zero] at hsumM
        have hsumN := sum_update wt s.workers src freshWorker
        rw [hw, wt_fresh, add_zero] at hsumN
        have hhb : hold job (⟨[], [b], .waiting⟩ : Worker Idx P V) = ↑b := by simp [hold, modeHold]
        have hwb : wt (⟨[], [b], .waiting⟩ : Worker Idx P V) = 4 + 2 * b.length := by simp [wt, modeWt]
        rw [hhb] at hsumM
        rw [hwb] at hsumN
        refine ⟨⟨?_, ?_, h.count, h.le, hst⟩, ?_⟩
        · have h6 := h.all
          rw [← hsumM, hk] at h6
          rw [← h6]
          simp only [cur, Multiset.coe_nil]
          abel
        · intro v
          simp only
          by_cases hv : v = src
          · subst hv
            rw [Function.update_self]
            exact Or.inl ⟨rfl, rfl⟩
          · rw [Function.update_of_ne hv]
            rcases h.shape v with ⟨g1, _⟩ | ⟨_, g2⟩
            · rw [hk] at g1; exact g1.elim
            · exact Or.inr ⟨fun hh => hv hh.symm, g2⟩
        · intro _
          simp only [meas, hk, ctlWt]
          omega
    · next hlt =>
      injection hs with hs; subst hs
      have hl := (h.drained (by rw [← h.count]; omega)).1
      refine ⟨⟨?_, ?_, h.count, h.le, hst, hl⟩, ?_⟩
      · have := h.all; rw [hk] at this; exact this
      · intro v
        rcases h.shape v with ⟨g1, _⟩ | ⟨_, g2⟩
        · rw [hk] at g1; exact g1.elim
        · exact Or.inr ⟨fun hh => hh, g2⟩
      · intro _; simp only [meas, hk, ctlWt]; omega
  · -- batch finished
    next w hk =>
    have hst : s.store = recordAll job s.log (initialStore job file) := by have := h.store; rw [hk] at this; exact this
    injection hs with hs; subst hs
    refine feed_inv h (by rw [hk]; rfl) (by rw [hk]; rfl) rfl (fun v => ?_) hst (Or.inr rfl) ?_
    · rw [hk]
      simp only [Free, ne_eq, false_iff, not_and, not_not]
      exact fun he => he.symm
    · rw [hk]; simp [ctlWt]
  · -- one result
    next w r rest hk =>
    have hst : s.store = recordAll job s.log (initialStore job file) := by have := h.store; rw [hk] at this; exact this
    have hidx : r.1 ∈ job.rows.map Prod.fst := h.log_idx hit (Or.inr (by rw [hk]; simp [cur]))
    obtain ⟨pos, hpos⟩ := posMap_isSome hd hidx
    rw [hpos] at hs
    simp only [Option.some.injEq] at hs
    subst hs
    refine ⟨⟨?_, ?_, by simp [h.count], h.le, ?_⟩, ?_⟩
    · have h6 := h.all
      rw [hk] at h6
      rw [← h6]
      simp only [cur, ← Multiset.coe_add, ← Multiset.cons_coe, ← Multiset.singleton_add, Multiset.coe_nil]
      simp only [Multiset.coe_singleton, add_zero]
      abel
    · intro v
      rcases h.shape v with ⟨g1, g2⟩ | ⟨g1, g2⟩
      · rw [hk] at g1; exact Or.inl ⟨g1, g2⟩
      · rw [hk] at g1; exact Or.inr ⟨g1, g2⟩
    · simp only [recordAll_append, hpos, hst]
    · intro _; simp only [meas, hk, ctlWt, List.length_cons]; omega
  · -- finishing
    next hk =>
    have hst := h.store
    rw [hk] at hst
    simp only at hst
    obtain ⟨hst, hl⟩ := hst
    simp only at hs
    split at hs
    · next e he =>
      exfalso
      rw [lastCheckpoint_results, hst, recordAll_results] at he
      have hlog : s.log ≠ [] := by
        intro hnil; rw [hnil] at hl; exact hne (List.length_eq_zero_iff.mp hl.symm)
      obtain ⟨x, hx⟩ := List.exists_mem_of_ne_nil _ hlog
      have := valid_held_ne hd (t := file.getD [] ++ s.log) (List.mem_append_right _ hx) (h.log_idx hit (Or.inl hx))
      unfold saveFinal at he
      split at he
      · next hv => exact this hv
      · cases he
    · next t ht =>
      injection hs with hs; subst hs
      refine ⟨⟨?_, ?_, h.count, h.le, ?_⟩, ?_⟩
      · have := h.all; rw [hk] at this; exact this
      · intro v
        rcases h.shape v with ⟨g1, _⟩ | ⟨_, g2⟩
        · rw [hk] at g1; exact g1.elim
        · exact Or.inr ⟨fun hh => hh, g2⟩
      · simp only
        exact ⟨by rw [hst], hl, t, rfl, ht⟩
      · intro _; simp only [meas, hk, ctlWt]; omega
  · next k hk => have := h.store; rw [hk] at this; exact this.elim
  · cases hs
  · cases hs

theorem init_inv (hne : toProcess job file ≠ []) : Inv job file (toProcess job file) bs (sysInit job file W) := by
  unfold sysInit
  split
  · next h => exact absurd h hne
  · refine ⟨?_, ?_, rfl, Nat.zero_le _, rfl⟩
    · simp [hold_fresh, cur]
    · intro w; exact Or.inl ⟨Nat.zero_le _, rfl⟩

theorem step_inv {s s' : Sys Idx P V W} {l : Label W} (hd : Distinct job)
    (hit : ∀ it ∈ items, it.2.1 ∈ job.rows.map Prod.fst) (hne : items ≠ [])
    (h : Inv job file items bs s) (hs : sysStep job items bs l s = some s') :
    Inv job file items bs s' ∧ (0 < bs → meas items s' < meas items s) := by
  cases l with
  | master src => exact master_inv hd hit hne h hs
  | worker w => exact ⟨(worker_inv h hs).1, fun _ => (worker_inv h hs).2⟩

theorem toProcess_idx (job : Job Idx P V) (file : Option (List (Idx × V))) :
    ∀ it ∈ toProcess job file, it.2.1 ∈ job.rows.map Prod.fst := by
  intro it h
  obtain ⟨h1, _⟩ := mem_toProcess.mp h
  exact List.mem_map_of_mem (f := Prod.fst) (List.mem_of_getElem? h1)

theorem exec_inv (hd : Distinct job) (hit : ∀ it ∈ items, it.2.1 ∈ job.rows.map Prod.fst) (hne : items ≠ []) :
    ∀ (sched : List (Label W)) (s s' : Sys Idx P V W), Inv job file items bs s →
      exec job items bs sched s = some s' →
      Inv job file items bs s' ∧ (0 < bs → meas items s' + sched.length ≤ meas items s)
  | [], s, s', h, he => by
    simp only [exec, Option.some.injEq] at he
    subst he
    exact ⟨h, fun _ => by simp⟩
  | l :: ls, s, s', h, he => by
    simp only [exec] at he
    cases hst : sysStep job items bs l s with
    | none => rw [hst] at he; simp at he
    | some s1 =>
      rw [hst] at he
      simp only [Option.bind_some] at he
      obtain ⟨h1, h2⟩ := step_inv hd hit hne h hst
      obtain ⟨h3, h4⟩ := exec_inv hd hit hne ls s1 s' h1 he
      refine ⟨h3, fun hb => ?_⟩
      have := h2 hb
      have := h4 hb
      simp only [List.length_cons]
      omega

/-- No deadlock: unless the master has returned and every worker has left its loop, some process can move. -/
theorem progress {s : Sys Idx P V W} (hW : 0 < W) (hb : 0 < bs) (h : Inv job file items bs s)
    (hstuck : ∀ l, sysStep job items bs l s = none) :
    s.ctl = .done ∧ ∀ w, s.workers w = ⟨[], [], .stopped⟩ := by
  have hwork : ∀ w, workerStep job w s = none := fun w => hstuck (.worker w)
  have hmast : ∀ w, masterStep job items bs w s = none := fun w => hstuck (.master w)
  -- a worker that cannot move is free, has replied, or has stopped
  have hshape : ∀ w, (Free s.ctl w ∧ s.workers w = freshWorker) ∨ (∃ b, s.workers w = ⟨[], [b], .waiting⟩) ∨
      (s.workers w = ⟨[], [], .stopped⟩ ∧ s.next = items.length) := by
    intro w
    have hw := hwork w
    unfold workerStep at hw
    simp only at hw
    rcases h.shape w with g | ⟨_, g2 | ⟨g2, g3⟩⟩
    · exact Or.inl g
    · generalize hwk : s.workers w = wk at hw g2
      cases g2 with
      | told => simp at hw
      | computing => simp at hw
      | replied b => exact Or.inr (Or.inl ⟨b, rfl⟩)
    · generalize hwk : s.workers w = wk at hw g2
      cases g2 with
      | told => simp at hw
      | stopped => exact Or.inr (Or.inr ⟨rfl, g3⟩)
  have hm := hmast ⟨0, hW⟩
  unfold masterStep at hm
  split at hm
  · split at hm <;> cases hm
  · next hk =>
    exfalso
    split at hm
    · next hlt =>
      -- something is in flight
      have hex : ∃ w b, s.workers w = ⟨[], [b], .waiting⟩ := by
        by_contra hno
        push Not at hno
        have hst : ∀ w, s.workers w = ⟨[], [], .stopped⟩ ∧ s.next = items.length := by
          intro w
          rcases hshape w with ⟨g, _⟩ | ⟨b, g⟩ | g
          · rw [hk] at g; exact g.elim
          · exact absurd g (hno w b)
          · exact g
        have h1 := congrArg Multiset.card h.all
        have h0 : ∑ w, hold job (s.workers w) = 0 := by
          refine Finset.sum_eq_zero fun w _ => ?_
          rw [(hst w).1]; simp [hold, modeHold]
        rw [h0, hk] at h1
        simp only [Multiset.card_add, Multiset.coe_card, pend, List.length_map, List.length_drop, Nat.sub_zero, cur,
          List.length_nil, Multiset.card_zero] at h1
        have h2 := (hst ⟨0, hW⟩).2
        have h3 := h.count
        omega
      obtain ⟨w, b, hwb⟩ := hex
      have hm2 := hmast w
      unfold masterStep at hm2
      rw [hk] at hm2
      simp only [hlt, if_true, hwb] at hm2
      cases hm2
    · cases hm
  · cases hm
  · split at hm <;> cases hm
  · simp only at hm
    split at hm <;> cases hm
  · split at hm <;> cases hm
  · next hk =>
    refine ⟨hk, fun w => ?_⟩
    have hst := h.store
    rw [hk] at hst
    simp only at hst
    have hdr := h.drained (le_of_eq hst.2.1.symm)
    rcases hshape w with ⟨g, _⟩ | ⟨b, g⟩ | g
    · rw [hk] at g; exact g.elim
    · exfalso
      have h1 := hdr.2.1 w
      rcases h.shape w with ⟨g1, g2⟩ | ⟨_, g2 | ⟨g2, _⟩⟩
      · rw [hk] at g1; exact g1
      · exact g2.hold_ne hb h1
      · rw [g] at g2; cases g2
    · exact g.1
  · next hk => have := h.store; rw [hk] at this; exact this.elim

end GwEcc.Mpi
