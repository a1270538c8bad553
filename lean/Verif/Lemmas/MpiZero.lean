import Verif.Model.Mpi
import Mathlib.Data.List.Nodup

/-! Helper lemmas: what master and workers do with batches of zero samples. -/

namespace GwEcc.Mpi

variable {Idx P V : Type} [DecidableEq Idx] {W : ℕ} {job : Job Idx P V} {items : List (ℕ × Idx × P)}

/-- a worker that has been sent an empty batch and has not been answered. -/
def EmptyBusy (wk : Worker Idx P V) : Prop :=
  wk = ⟨[.batch []], [], .waiting⟩ ∨ wk = ⟨[], [], .computing []⟩ ∨ wk = ⟨[], [[]], .waiting⟩

/-- which workers hold an empty batch, for each control state of the master. -/
def ZShape (s : Sys Idx P V W) : Prop :=
  match s.ctl with
  | .prime k => ∀ w : Fin W, (w.val < k → EmptyBusy (s.workers w)) ∧ (k ≤ w.val → s.workers w = freshWorker)
  | .loop => ∀ w, EmptyBusy (s.workers w)
  | .handle v [] => s.workers v = freshWorker ∧ ∀ w, w ≠ v → EmptyBusy (s.workers w)
  | _ => False

/-- the states reached with batches of zero samples. -/
structure ZInv (st : Store Idx V) (s : Sys Idx P V W) : Prop where
  next : s.next = 0
  completed : s.completed = 0
  log : s.log = []
  store : s.store = st
  table : s.table = none
  shape : ZShape s

theorem feed_zero (h : items ≠ []) (w : Fin W) {s : Sys Idx P V W} (hn : s.next = 0) :
    feed items 0 w s = { s with workers := send s.workers w (.batch []), next := 0 } := by
  have : 0 < items.length := List.length_pos_iff.mpr h
  unfold feed
  simp [hn, this]

theorem send_fresh {ws : Fin W → Worker Idx P V} {w : Fin W} (h : ws w = freshWorker) :
    EmptyBusy (send ws w (.batch []) w) := by
  left
  simp [send, h, freshWorker]

theorem send_other {ws : Fin W → Worker Idx P V} {w v : Fin W} {m : Msg Idx P} (h : v ≠ w) :
    send ws w m v = ws v := by simp [send, h]

theorem worker_zero {w : Fin W} {s s' : Sys Idx P V W} (hw : EmptyBusy (s.workers w) ∨ s.workers w = freshWorker)
    (h : workerStep job w s = some s') :
    EmptyBusy (s.workers w) ∧ EmptyBusy (s'.workers w) ∧ (∀ v, v ≠ w → s'.workers v = s.workers v) ∧
      s' = { s with workers := s'.workers } := by
  rcases hw with (hw | hw | hw) | hw
  · simp [workerStep, hw] at h
    subst h
    exact ⟨Or.inl hw, Or.inr (Or.inl (by simp)), fun v hv => by simp [hv], rfl⟩
  · simp [workerStep, hw] at h
    subst h
    exact ⟨Or.inr (Or.inl hw), Or.inr (Or.inr (by simp)), fun v hv => by simp [hv], rfl⟩
  · simp [workerStep, hw] at h
  · simp [workerStep, hw, freshWorker] at h

theorem zinv_step (hne : items ≠ []) {st : Store Idx V} {l : Label W} {s s' : Sys Idx P V W} (hi : ZInv st s)
    (h : sysStep job items 0 l s = some s') : ZInv st s' := by
  have hlen : 0 < items.length := List.length_pos_iff.mpr hne
  obtain ⟨hn, hc, hl, hst, ht, hs⟩ := hi
  obtain ⟨ctl, next, completed, store, table, workers, log⟩ := s
  dsimp only at hn hc hl hst ht
  cases l with
  | worker w =>
    have hw : EmptyBusy (workers w) ∨ workers w = freshWorker := by
      unfold ZShape at hs
      dsimp only at hs
      split at hs
      · rename_i k
        rcases Nat.lt_or_ge w.val k with g | g
        · exact Or.inl ((hs w).1 g)
        · exact Or.inr ((hs w).2 g)
      · exact Or.inl (hs w)
      · rename_i v
        by_cases g : w = v
        · rw [g]; exact Or.inr hs.1
        · exact Or.inl (hs.2 w g)
      · exact hs.elim
    obtain ⟨h1, h2, h3, h4⟩ := worker_zero hw h
    dsimp only at h1 h3 h4
    rw [h4]
    refine ⟨hn, hc, hl, hst, ht, ?_⟩
    unfold ZShape at hs ⊢
    dsimp only at hs ⊢
    have hnf : workers w ≠ freshWorker := by
      intro hf
      rw [hf] at h1
      rcases h1 with g | g | g <;> cases g
    split at hs
    · rename_i k
      intro v
      by_cases g : v = w
      · subst g
        refine ⟨fun _ => h2, fun gk => absurd ((hs v).2 gk) hnf⟩
      · rw [h3 v g]; exact hs v
    · intro v
      by_cases g : v = w
      · subst g; exact h2
      · rw [h3 v g]; exact hs v
    · rename_i u
      have hu : u ≠ w := fun g => hnf (g ▸ hs.1)
      refine ⟨by rw [h3 u hu]; exact hs.1, fun v gv => ?_⟩
      by_cases g : v = w
      · subst g; exact h2
      · rw [h3 v g]; exact hs.2 v gv
    · exact hs.elim
  | master src =>
    change masterStep job items 0 src _ = some s' at h
    unfold ZShape at hs
    dsimp only at hs
    unfold masterStep at h
    dsimp only at h
    split at hs
    · rename_i k
      dsimp only at h
      split at h
      · rename_i hk
        rw [feed_zero hne _ hn] at h
        cases h
        refine ⟨rfl, hc, hl, hst, ht, ?_⟩
        unfold ZShape
        dsimp only
        intro w
        by_cases g : w = ⟨k, hk⟩
        · subst g
          exact ⟨fun _ => send_fresh ((hs ⟨k, hk⟩).2 le_rfl), fun g => absurd g (by simp)⟩
        · have gv : w.val ≠ k := fun e => g (Fin.ext e)
          rw [send_other g]
          exact ⟨fun e => (hs w).1 (by omega), fun e => (hs w).2 (by omega)⟩
      · rename_i hk
        cases h
        refine ⟨hn, hc, hl, hst, ht, ?_⟩
        unfold ZShape
        dsimp only
        intro w
        exact (hs w).1 (by have := w.isLt; omega)
    · dsimp only at h
      rw [hc, if_pos hlen] at h
      split at h
      · cases h
      · rename_i b rest hb
        cases h
        rcases hs src with g | g | g
        · rw [g] at hb; cases hb
        · rw [g] at hb; cases hb
        · rw [g] at hb
          cases hb
          refine ⟨hn, rfl, hl, hst, ht, ?_⟩
          unfold ZShape
          dsimp only
          refine ⟨by simp [g, freshWorker], fun w hw => ?_⟩
          rw [Function.update_of_ne hw]
          exact hs w
    · rename_i v
      dsimp only at h
      rw [feed_zero hne _ hn] at h
      cases h
      refine ⟨rfl, hc, hl, hst, ht, ?_⟩
      unfold ZShape
      dsimp only
      intro w
      by_cases g : w = v
      · subst g; exact send_fresh hs.1
      · rw [send_other g]; exact hs.2 w g
    · exact hs.elim

theorem zinv_init {file : Option (List (Idx × V))} (h : toProcess job file ≠ []) :
    ZInv (initialStore job file) (sysInit job file W) := by
  unfold sysInit
  dsimp only
  split
  · rename_i e; exact absurd e h
  · refine ⟨rfl, rfl, rfl, rfl, rfl, ?_⟩
    unfold ZShape
    intro w
    exact ⟨fun g => absurd g (Nat.not_lt_zero _), fun _ => rfl⟩

theorem zinv_exec (hne : items ≠ []) {st : Store Idx V} {sched : List (Label W)} {s s' : Sys Idx P V W}
    (hi : ZInv st s) (h : exec job items 0 sched s = some s') : ZInv st s' := by
  induction sched generalizing s with
  | nil => cases h; exact hi
  | cons l ls ih =>
    unfold exec at h
    obtain ⟨s1, h1, h2⟩ := Option.bind_eq_some_iff.mp h
    exact ih (zinv_step hne hi h1) h2

theorem zinv_progress (hne : items ≠ []) (hW : 0 < W) {st : Store Idx V} {s : Sys Idx P V W} (hi : ZInv st s) :
    ∃ l, (sysStep job items 0 l s).isSome := by
  have hlen : 0 < items.length := List.length_pos_iff.mpr hne
  have hs := hi.shape
  have hc := hi.completed
  unfold ZShape at hs
  split at hs
  · rename_i k hk
    refine ⟨.master ⟨0, hW⟩, ?_⟩
    simp only [sysStep, masterStep, hk]
    split <;> rfl
  · rename_i hk
    rcases hs ⟨0, hW⟩ with g | g | g
    · exact ⟨.worker ⟨0, hW⟩, by simp [sysStep, workerStep, g]⟩
    · exact ⟨.worker ⟨0, hW⟩, by simp [sysStep, workerStep, g]⟩
    · exact ⟨.master ⟨0, hW⟩, by simp [sysStep, masterStep, hk, hc, hlen, g]⟩
  · rename_i v hk
    exact ⟨.master ⟨0, hW⟩, by simp [sysStep, masterStep, hk]⟩
  · exact hs.elim

end GwEcc.Mpi
