import Verif.Spec.Heap
import Verif.Lemmas.Process
import Verif.Lemmas.Frame

/-!
# Programs on objects compute the same data as the functions on values
-/

set_option linter.unusedSectionVars false

namespace GwEcc

variable {K C : Type}

/-! ### Monad -/

theorem HM.bind_ok {α β : Type} {p : HM K C α} {f : α → HM K C β} {h h' : Heap K C} {a : α} (hp : p h = (.ok a, h')) :
    (p >>= f) h = f a h' := by
  show HM.bind p f h = _
  unfold HM.bind; rw [hp]

theorem HM.bind_error {α β : Type} {p : HM K C α} {f : α → HM K C β} {h h' : Heap K C} {e : Err}
    (hp : p h = (.error e, h')) : (p >>= f) h = (.error e, h') := by
  show HM.bind p f h = _
  unfold HM.bind; rw [hp]

theorem HM.pure_apply {α : Type} (a : α) (h : Heap K C) : (pure a : HM K C α) h = (.ok a, h) := rfl
theorem HM.lift_apply {α : Type} (p : Py α) (h : Heap K C) : (HM.lift p : HM K C α) h = (p, h) := rfl
theorem HM.read_bind {α β : Type} (g : Heap K C → α) (f : α → HM K C β) (h : Heap K C) :
    (HM.read g >>= f) h = f (g h) h := rfl
theorem HM.lift_bind_ok {α β : Type} {p : Py α} {a : α} (hp : p = .ok a) (f : α → HM K C β) (h : Heap K C) :
    (HM.lift p >>= f) h = f a h := by subst hp; rfl
theorem HM.lift_bind_error {α β : Type} {p : Py α} {e : Err} (hp : p = .error e) (f : α → HM K C β) (h : Heap K C) :
    (HM.lift p >>= f) h = (.error e, h) := by subst hp; rfl
theorem HM.pure_bind {α β : Type} (a : α) (f : α → HM K C β) (h : Heap K C) : ((pure a : HM K C α) >>= f) h = f a h := rfl

instance : LawfulMonad (HM K C) := LawfulMonad.mk'
  (id_map := by
    intro α x; funext h
    show HM.bind x (fun a => HM.pure (id a)) h = x h
    unfold HM.bind
    rcases x h with ⟨e | a, h'⟩ <;> rfl)
  (pure_bind := by intros; rfl)
  (bind_assoc := by
    intro α β γ x f g; funext h
    show HM.bind (HM.bind x f) g h = HM.bind x (fun a => HM.bind (f a) g) h
    unfold HM.bind
    rcases x h with ⟨e | a, h'⟩ <;> rfl)
  (bind_pure_comp := by intros; rfl)

/-! ### Well-formed memory -/

/-- The objects of `h` outside `S` are as before in `h'`, which may have more. -/
def Keep (S : Set ℕ) (h h' : Heap K C) : Prop :=
  h.length ≤ h'.length ∧ ∀ i < h.length, i ∉ S → h'[i]? = h[i]?

theorem Keep.refl (S : Set ℕ) (h : Heap K C) : Keep S h h := ⟨le_rfl, fun _ _ _ => rfl⟩

theorem Keep.trans {S : Set ℕ} {h h' h'' : Heap K C} (a : Keep S h h') (b : Keep S h' h'') : Keep S h h'' :=
  ⟨a.1.trans b.1, fun i hi hS => (b.2 i (hi.trans_le a.1) hS).trans (a.2 i hi hS)⟩

theorem Keep.mono {S T : Set ℕ} {h h' : Heap K C} (a : Keep S h h') (hST : ∀ i < h.length, i ∈ S → i ∈ T) : Keep T h h' :=
  ⟨a.1, fun i hi hT => a.2 i hi (fun hS => hT (hST i hi hS))⟩

theorem Keep.append (h e : Heap K C) : Keep ∅ h (h ++ e) :=
  ⟨by simp, fun _ hi _ => by rw [List.getElem?_append_left hi]⟩

theorem lt_of_getElem? {h : Heap K C} {i : ℕ} {c : Cell K C} (hc : h[i]? = some c) : i < h.length := by
  rw [List.getElem?_eq_some_iff] at hc; exact hc.1

/-- No object of `S` is an array. -/
def NoArr (S : Set ℕ) (h : Heap K C) : Prop :=
  ∀ i ∈ S, ∀ c, h[i]? = some c → (∀ l, c ≠ .nums l) ∧ (∀ b s n, c ≠ .view b s n) ∧ (∀ l, c ≠ .cnums l)

theorem NoArr.empty (h : Heap K C) : NoArr ∅ h := fun i hi => absurd hi (by simp)

theorem Keep.nums {S : Set ℕ} {h h' : Heap K C} (k : Keep S h h') (n : NoArr S h) {i : ℕ} {l : List K}
    (hi : h[i]? = some (.nums l)) : h'[i]? = some (.nums l) := by
  rw [k.2 i (lt_of_getElem? hi) (fun hS => (n i hS _ hi).1 l rfl), hi]

theorem Keep.view {S : Set ℕ} {h h' : Heap K C} (k : Keep S h h') (n : NoArr S h) {i b s m : ℕ}
    (hi : h[i]? = some (.view b s m)) : h'[i]? = some (.view b s m) := by
  rw [k.2 i (lt_of_getElem? hi) (fun hS => (n i hS _ hi).2.1 b s m rfl), hi]

theorem Keep.cnums {S : Set ℕ} {h h' : Heap K C} (k : Keep S h h') (n : NoArr S h) {i : ℕ} {l : List C}
    (hi : h[i]? = some (.cnums l)) : h'[i]? = some (.cnums l) := by
  rw [k.2 i (lt_of_getElem? hi) (fun hS => (n i hS _ hi).2.2 l rfl), hi]

theorem IsArr.keep {S : Set ℕ} {h h' : Heap K C} (k : Keep S h h') (n : NoArr S h) {r : ℕ} (hr : IsArr h r) : IsArr h' r := by
  rcases hr with ⟨l, hl⟩ | ⟨b, s, m, hl⟩
  · exact .inl ⟨l, k.nums n hl⟩
  · exact .inr ⟨b, s, m, k.view n hl⟩

theorem IsArr.lt {h : Heap K C} {r : ℕ} (hr : IsArr h r) : r < h.length := by
  rcases hr with ⟨l, hl⟩ | ⟨b, s, m, hl⟩ <;> exact lt_of_getElem? hl

theorem Cell.Ok.keep {S : Set ℕ} {h h' : Heap K C} (k : Keep S h h') (n : NoArr S h) {c : Cell K C} (hc : c.Ok h) :
    c.Ok h' := by
  cases c with
  | nums l => trivial
  | cnums l => trivial
  | other => trivial
  | view b s m => obtain ⟨l, hl⟩ := hc; exact ⟨l, k.nums n hl⟩
  | modesR d => exact fun p hp => (hc p hp).keep k n
  | modesC d => exact fun p hp => let ⟨l, hl⟩ := hc p hp; ⟨l, k.cnums n hl⟩
  | top d => exact fun p hp => (hc p hp).trans_le k.1

theorem WF.append {h : Heap K C} (w : WF h) {c : Cell K C} (hc : c.Ok (h ++ [c])) : WF (h ++ [c]) := by
  intro i c' hi
  by_cases hl : i < h.length
  · rw [List.getElem?_append_left hl] at hi
    exact (w i c' hi).keep (Keep.append h [c]) (NoArr.empty h)
  · rw [List.getElem?_append_right (by omega)] at hi
    have : i - h.length = 0 := by
      by_contra hne
      rw [List.getElem?_eq_none (by simp; omega)] at hi; cases hi
    rw [this] at hi
    cases hi
    exact hc

/-! ### Reading -/

theorem readR_keep {S : Set ℕ} {h h' : Heap K C} (k : Keep S h h') (n : NoArr S h) (w : WF h) {r : ℕ} (hr : IsArr h r) :
    readR h' r = readR h r := by
  rcases hr with ⟨l, hl⟩ | ⟨b, s, m, hl⟩
  · unfold readR; rw [k.nums n hl, hl]
  · obtain ⟨l, hb⟩ := w _ _ hl
    unfold readR; rw [k.view n hl, hl]
    simp only
    rw [k.nums n hb, hb]

theorem readModesR_keep {S : Set ℕ} {h h' : Heap K C} (k : Keep S h h') (n : NoArr S h) (w : WF h) {d : Dict LM Ref}
    (hd : ∀ p ∈ d, IsArr h p.2) : readModesR h' d = readModesR h d := by
  unfold readModesR
  apply List.map_congr_left
  intro p hp
  rw [readR_keep k n w (hd p hp)]

theorem readModesC_keep {S : Set ℕ} {h h' : Heap K C} (k : Keep S h h') (n : NoArr S h) {d : Dict LM Ref}
    (hd : ∀ p ∈ d, ∃ l, h[p.2]? = some (.cnums l)) : readModesC h' d = readModesC h d := by
  unfold readModesC
  apply List.map_congr_left
  intro p hp
  obtain ⟨l, hl⟩ := hd p hp
  unfold readC
  rw [k.cnums n hl, hl]

theorem readEntry_keep {S : Set ℕ} {h h' : Heap K C} (k : Keep S h h') (n : NoArr S h) (w : WF h) {r : ℕ}
    (hr : r < h.length) (hS : r ∉ S) : readEntry h' r = readEntry h r := by
  have hc := k.2 r hr hS
  obtain ⟨c, hcell⟩ : ∃ c, h[r]? = some c := ⟨h[r], by simp [hr]⟩
  have hok := w _ _ hcell
  unfold readEntry
  rw [hc, hcell]
  cases c with
  | nums l => rfl
  | cnums l => rfl
  | other => rfl
  | top d => rfl
  | view b s m => obtain ⟨l, hl⟩ := hok; simp only; rw [k.nums n hl, hl]
  | modesR d => simp only; rw [readModesR_keep k n w hok]
  | modesC d => simp only; rw [readModesC_keep k n hok]

theorem readTop_keep {S : Set ℕ} {h h' : Heap K C} (k : Keep S h h') (n : NoArr S h) (w : WF h) {d : Dict String Ref}
    (hd : ∀ p ∈ d, p.2 < h.length) (hS : ∀ p ∈ d, p.2 ∉ S) : readTop h' d = readTop h d := by
  unfold readTop
  apply List.map_congr_left
  intro p hp
  rw [readEntry_keep k n w (hd p hp) (hS p hp)]

theorem topDict_keep {S : Set ℕ} {h h' : Heap K C} (k : Keep S h h') {r : ℕ} (hr : r < h.length) (hS : r ∉ S) :
    topDict h' r = topDict h r := by
  unfold topDict; rw [k.2 r hr hS]

theorem topDict_lt {h : Heap K C} (w : WF h) (r : ℕ) : ∀ p ∈ topDict h r, p.2 < h.length := by
  unfold topDict
  split
  · rename_i d hd; exact w _ _ hd
  · intro p hp; cases hp

theorem readV_keep {S : Set ℕ} {h h' : Heap K C} (k : Keep S h h') (n : NoArr S h) (w : WF h) {r : ℕ}
    (hr : r < h.length) (hS : r ∉ S) (hT : ∀ p ∈ topDict h r, p.2 ∉ S) : readV h' r = readV h r := by
  unfold readV
  rw [topDict_keep k hr hS, readTop_keep k n w (topDict_lt w r) hT]

/-! ### Dictionaries of references and their contents -/

theorem map_set {κ V W : Type} [DecidableEq κ] (f : V → W) (d : Dict κ V) (k : κ) (v : V) :
    (d.set k v).map (fun p => (p.1, f p.2)) = Dict.set (d.map fun p => (p.1, f p.2)) k (f v) := by
  induction d with
  | nil => rfl
  | cons p d ih =>
    simp only [Dict.set, List.map_cons]
    split
    · rfl
    · rw [List.map_cons, ih]

theorem map_del {κ V W : Type} [DecidableEq κ] (f : V → W) (d : Dict κ V) (k : κ) :
    (Dict.del d k).map (fun p => (p.1, f p.2)) = Dict.del (d.map fun p => (p.1, f p.2)) k := by
  unfold Dict.del
  rw [List.filter_map]; rfl

theorem map_update {κ V W : Type} [DecidableEq κ] (f : V → W) (d e : Dict κ V) :
    (Dict.update d e).map (fun p => (p.1, f p.2)) =
      Dict.update (d.map fun p => (p.1, f p.2)) (e.map fun p => (p.1, f p.2)) := by
  unfold Dict.update
  induction e generalizing d with
  | nil => rfl
  | cons p e ih => rw [List.foldl_cons, ih, List.map_cons, List.foldl_cons, map_set]

theorem map_get? {κ V W : Type} [DecidableEq κ] (f : V → W) (d : Dict κ V) (k : κ) :
    Dict.get? (d.map fun p => (p.1, f p.2)) k = (d.get? k).map f := by
  induction d with
  | nil => rfl
  | cons p d ih =>
    rw [List.map_cons, Dict.get?_cons, Dict.get?_cons, ih]
    split <;> rfl

theorem map_has {κ V W : Type} [DecidableEq κ] (f : V → W) (d : Dict κ V) (k : κ) :
    Dict.has (d.map fun p => (p.1, f p.2)) k = d.has k := by
  unfold Dict.has; rw [map_get?]; cases d.get? k <;> rfl

theorem readTop_has (h : Heap K C) (d : Dict String Ref) (k : String) : (readTop h d).has k = d.has k := map_has _ d k

theorem readTop_get? (h : Heap K C) (d : Dict String Ref) (k : String) :
    (readTop h d).get? k = (d.get? k).map (readEntry h) := map_get? _ d k

theorem readTop_getItem (h : Heap K C) (d : Dict String Ref) (k : String) :
    (readTop h d).getItem k = (d.getItem k).map (readEntry h) := by
  unfold Dict.getItem
  rw [readTop_get?]
  cases d.get? k <;> rfl

theorem readTop_set (h : Heap K C) (d : Dict String Ref) (k : String) (r : Ref) :
    readTop h (d.set k r) = (readTop h d).set k (readEntry h r) := map_set _ d k r

theorem readTop_update (h : Heap K C) (d e : Dict String Ref) :
    readTop h (Dict.update d e) = Dict.update (readTop h d) (readTop h e) := map_update _ d e

theorem readTop_del (h : Heap K C) (d : Dict String Ref) (k : String) :
    readTop h (Dict.del d k) = Dict.del (readTop h d) k := map_del _ d k

theorem readModesR_set (h : Heap K C) (d : Dict LM Ref) (k : LM) (r : Ref) :
    readModesR h (d.set k r) = (readModesR h d).set k (readR h r) := map_set _ d k r

theorem readModesR_update (h : Heap K C) (d e : Dict LM Ref) :
    readModesR h (Dict.update d e) = Dict.update (readModesR h d) (readModesR h e) := map_update _ d e

theorem mem_set {κ V : Type} [DecidableEq κ] {d : Dict κ V} {k : κ} {v : V} {p : κ × V} (hp : p ∈ d.set k v) :
    p ∈ d ∨ p = (k, v) := by
  induction d with
  | nil => right; simpa [Dict.set] using hp
  | cons q d ih =>
    unfold Dict.set at hp
    split at hp
    · rcases List.mem_cons.1 hp with h | h
      · exact .inr h
      · exact .inl (List.mem_cons_of_mem _ h)
    · rcases List.mem_cons.1 hp with h | h
      · exact .inl (h ▸ List.mem_cons_self ..)
      · rcases ih h with h | h
        · exact .inl (List.mem_cons_of_mem _ h)
        · exact .inr h

theorem mem_update {κ V : Type} [DecidableEq κ] {d e : Dict κ V} {p : κ × V} (hp : p ∈ Dict.update d e) : p ∈ d ∨ p ∈ e := by
  unfold Dict.update at hp
  induction e generalizing d with
  | nil => exact .inl hp
  | cons q e ih =>
    rw [List.foldl_cons] at hp
    rcases ih hp with h | h
    · rcases mem_set h with h | h
      · exact .inl h
      · exact .inr (h ▸ List.mem_cons_self ..)
    · exact .inr (List.mem_cons_of_mem _ h)

theorem mem_del {κ V : Type} [DecidableEq κ] {d : Dict κ V} {k : κ} {p : κ × V} (hp : p ∈ Dict.del d k) : p ∈ d :=
  (List.mem_filter.1 hp).1

theorem mem_of_get? {κ V : Type} [DecidableEq κ] {d : Dict κ V} {k : κ} {v : V} (h : d.get? k = some v) : (k, v) ∈ d := by
  induction d with
  | nil => cases h
  | cons q d ih =>
    rw [Dict.get?_cons] at h
    split at h
    · rename_i hk; cases h; subst hk; exact List.mem_cons_self ..
    · exact List.mem_cons_of_mem _ (ih h)

theorem get?_of_mem {κ V : Type} [DecidableEq κ] {d : Dict κ V} (hn : d.keys.Nodup) {k : κ} {v : V} (h : (k, v) ∈ d) :
    d.get? k = some v := by
  induction d with
  | nil => cases h
  | cons q d ih =>
    simp only [Dict.keys, List.map_cons, List.nodup_cons] at hn
    rw [Dict.get?_cons]
    rcases List.mem_cons.1 h with h | h
    · subst h; simp
    · have : k ≠ q.1 := by
        rintro rfl
        exact hn.1 (List.mem_map.2 ⟨_, h, rfl⟩)
      rw [if_neg this]
      exact ih hn.2 h

theorem nodup_update {κ V : Type} [DecidableEq κ] {d e : Dict κ V} (hd : d.keys.Nodup) : (Dict.update d e).keys.Nodup := by
  unfold Dict.update
  induction e generalizing d with
  | nil => exact hd
  | cons q e ih => exact ih (Dict.nodup_set _ _ hd)

theorem readTop_keys (h : Heap K C) (d : Dict String Ref) : (readTop h d).keys = d.keys := by
  unfold readTop Dict.keys; rw [List.map_map]; rfl

/-! ### Simulation -/

/-- From memory `h`, the program ends like the computation `v` on values; only objects in `S` have changed. -/
def Sim {α β : Type} (S : Set ℕ) (p : HM K C α) (v : Py β) (R : Heap K C → α → β → Prop) (h : Heap K C) : Prop :=
  ∃ h', WF h' ∧ Keep S h h' ∧ match v with
    | .error e => p h = (.error e, h')
    | .ok b => ∃ a, p h = (.ok a, h') ∧ R h' a b

theorem Sim.bind {α β α' β' : Type} {S : Set ℕ} {p : HM K C α} {v : Py β} {R : Heap K C → α → β → Prop} {h : Heap K C}
    {f : α → HM K C α'} {g : β → Py β'} {R' : Heap K C → α' → β' → Prop} (hp : Sim S p v R h)
    (hf : ∀ h' a b, v = .ok b → WF h' → Keep S h h' → R h' a b → Sim S (f a) (g b) R' h') : Sim S (p >>= f) (v >>= g) R' h := by
  obtain ⟨h', hw, hk, hm⟩ := hp
  cases v with
  | error e => exact ⟨h', hw, hk, HM.bind_error hm⟩
  | ok b =>
    obtain ⟨a, hpa, hR⟩ := hm
    obtain ⟨h'', hw', hk', hm'⟩ := hf h' a b rfl hw hk hR
    refine ⟨h'', hw', hk.trans hk', ?_⟩
    rw [HM.bind_ok hpa]
    exact hm'

theorem Sim.pure {α β : Type} {S : Set ℕ} {R : Heap K C → α → β → Prop} {h : Heap K C} {a : α} {b : β} (w : WF h)
    (hR : R h a b) : Sim S (pure a) (.ok b) R h := ⟨h, w, Keep.refl _ _, a, rfl, hR⟩

theorem Sim.error {α β : Type} {S : Set ℕ} {R : Heap K C → α → β → Prop} {h : Heap K C} {e : Err} (w : WF h) :
    Sim S (HM.lift (.error e) : HM K C α) (.error e : Py β) R h := ⟨h, w, Keep.refl _ _, rfl⟩

theorem Sim.lift {α : Type} {S : Set ℕ} {h : Heap K C} {v : Py α} (w : WF h) : Sim S (HM.lift v) v (fun h' a b => a = b ∧ h' = h) h := by
  refine ⟨h, w, Keep.refl _ _, ?_⟩
  cases v with
  | error e => rfl
  | ok b => exact ⟨b, rfl, rfl, rfl⟩

theorem Sim.weaken {α β : Type} {S T : Set ℕ} {p : HM K C α} {v : Py β} {R R' : Heap K C → α → β → Prop} {h : Heap K C}
    (hs : Sim S p v R h) (hST : ∀ i < h.length, i ∈ S → i ∈ T)
    (hR : ∀ h' a b, v = .ok b → WF h' → Keep S h h' → R h' a b → R' h' a b) : Sim T p v R' h := by
  obtain ⟨h', hw, hk, hm⟩ := hs
  refine ⟨h', hw, hk.mono hST, ?_⟩
  cases v with
  | error e => exact hm
  | ok b => obtain ⟨a, ha, hRa⟩ := hm; exact ⟨a, ha, hR h' a b rfl hw hk hRa⟩

theorem Sim.read {α α' β' : Type} {S : Set ℕ} {g : Heap K C → α} {f : α → HM K C α'} {v : Py β'}
    {R : Heap K C → α' → β' → Prop} {h : Heap K C} (hs : Sim S (f (g h)) v R h) : Sim S (HM.read g >>= f) v R h := hs

theorem Sim.liftBind {α α' β' : Type} {S : Set ℕ} {p : Py α} {f : α → HM K C α'} {g : α → Py β'}
    {R : Heap K C → α' → β' → Prop} {h : Heap K C} (w : WF h) (hs : ∀ a, p = .ok a → Sim S (f a) (g a) R h) :
    Sim S (HM.lift p >>= f) (p >>= g) R h := by
  cases p with
  | error e => exact ⟨h, w, Keep.refl _ _, rfl⟩
  | ok a => exact hs a rfl

/-! ### Allocation -/

section
variable [Field K] [LinearOrder K]

theorem alloc_sim {h : Heap K C} (w : WF h) {c : Cell K C} (hc : c.Ok (h ++ [c])) :
    Sim ∅ (alloc c) (.ok ()) (fun h' r _ => r = h.length ∧ h' = h ++ [c]) h :=
  ⟨h ++ [c], w.append hc, Keep.append h [c], h.length, rfl, rfl, rfl⟩

theorem getElem?_snoc (h : Heap K C) (c : Cell K C) : (h ++ [c])[h.length]? = some c := by simp

/-- A dictionary of references to arrays with contents `m`. -/
def HasR (h : Heap K C) (d : Dict LM Ref) (m : Dict LM (List K)) : Prop := readModesR h d = m ∧ ∀ p ∈ d, IsArr h p.2

theorem HasR.keep {S : Set ℕ} {h h' : Heap K C} {d : Dict LM Ref} {m : Dict LM (List K)} (a : HasR h d m)
    (k : Keep S h h') (n : NoArr S h) (w : WF h) : HasR h' d m :=
  ⟨(readModesR_keep k n w a.2).trans a.1, fun p hp => (a.2 p hp).keep k n⟩

/-- A dictionary of references to complex arrays with contents `m`. -/
def HasC (h : Heap K C) (d : Dict LM Ref) (m : Dict LM (List C)) : Prop :=
  readModesC h d = m ∧ ∀ p ∈ d, ∃ l, h[p.2]? = some (.cnums l)

theorem HasC.keep {S : Set ℕ} {h h' : Heap K C} {d : Dict LM Ref} {m : Dict LM (List C)} (a : HasC h d m)
    (k : Keep S h h') (n : NoArr S h) : HasC h' d m :=
  ⟨(readModesC_keep k n a.2).trans a.1, fun p hp => let ⟨l, hl⟩ := a.2 p hp; ⟨l, k.cnums n hl⟩⟩

theorem Sim.allocBind {α β : Type} {c : Cell K C} {f : Ref → HM K C α} {v : Py β} {R : Heap K C → α → β → Prop}
    {h : Heap K C} (w : WF h) (hc : c.Ok (h ++ [c])) (hf : WF (h ++ [c]) → Sim ∅ (f h.length) v R (h ++ [c])) :
    Sim ∅ (alloc c >>= f) v R h := by
  obtain ⟨h', hw, hk, hm⟩ := hf (w.append hc)
  exact ⟨h', hw, (Keep.append h [c]).trans hk, hm⟩

/-- Programs run on the elements of a list one after the other. -/
theorem Sim.mapM {α β : Type} {f : α → HM K C β} {I : Heap K C → α → Prop} {P : Heap K C → β → α → Prop}
    (hstep : ∀ h a, WF h → I h a → Sim ∅ (f a) (.ok a) P h)
    (hI : ∀ h h' a, WF h → Keep ∅ h h' → I h a → I h' a)
    (hP : ∀ h h' b a, WF h → Keep ∅ h h' → P h b a → P h' b a) (l : List α) (h : Heap K C) (w : WF h)
    (hl : ∀ a ∈ l, I h a) : Sim ∅ (l.mapM f) (.ok l) (fun h' bs as => List.Forall₂ (P h') bs as) h := by
  induction l generalizing h with
  | nil => exact Sim.pure w .nil
  | cons a l ih =>
    rw [List.mapM_cons]
    refine Sim.bind (v := .ok a) (g := fun a => (.ok (a :: l) : Py (List α))) (hstep h a w (hl a (by simp))) ?_
    intro h1 b a' e1 w1 k1 hb
    cases e1
    refine Sim.bind (v := .ok l) (g := fun l' => (.ok (a :: l') : Py (List α)))
      (ih h1 w1 (fun x hx => hI h h1 x w k1 (hl x (by simp [hx])))) ?_
    intro h2 bs as e2 w2 k2 hbs
    cases e2
    exact Sim.pure w2 (.cons (hP h1 h2 b a w1 k2 hb) hbs)

theorem allocR_sim (m : Dict LM (List K)) (h : Heap K C) (w : WF h) : Sim ∅ (allocR m) (.ok m) HasR h := by
  have := Sim.mapM (K := K) (C := C) (f := fun p : LM × List K => do
      let r ← alloc (.nums p.2)
      pure (p.1, r)) (I := fun _ _ => True) (P := fun h b a => b.1 = a.1 ∧ IsArr h b.2 ∧ readR h b.2 = a.2) ?_ ?_ ?_ m h w
      (fun _ _ => trivial)
  · refine this.weaken (fun _ _ h => h) ?_
    intro h' d m' he _ _ hf
    clear he
    constructor
    · unfold readModesR
      induction hf with
      | nil => rfl
      | cons hb _ ih => rw [List.map_cons, ih, hb.2.2, hb.1]
    · intro p hp
      induction hf with
      | nil => cases hp
      | cons hb _ ih =>
        rcases List.mem_cons.1 hp with e | e
        · subst e; exact hb.2.1
        · exact ih e
  · intro h a w _
    refine Sim.allocBind w trivial fun w' => Sim.pure w' ?_
    refine ⟨rfl, .inl ⟨a.2, getElem?_snoc _ _⟩, ?_⟩
    unfold readR; rw [getElem?_snoc]
  · exact fun _ _ _ _ _ _ => trivial
  · exact fun h h' b a w k hp => ⟨hp.1, hp.2.1.keep k (NoArr.empty h), (readR_keep k (NoArr.empty h) w hp.2.1).trans hp.2.2⟩

theorem allocC_sim (m : Dict LM (List C)) (h : Heap K C) (w : WF h) : Sim ∅ (allocC m) (.ok m) HasC h := by
  have := Sim.mapM (K := K) (C := C) (f := fun p : LM × List C => do
      let r ← alloc (.cnums p.2)
      pure (p.1, r)) (I := fun _ _ => True) (P := fun h b a => b.1 = a.1 ∧ h[b.2]? = some (.cnums a.2)) ?_ ?_ ?_ m h w
      (fun _ _ => trivial)
  · refine this.weaken (fun _ _ h => h) ?_
    intro h' d m' he _ _ hf
    clear he
    constructor
    · unfold readModesC
      induction hf with
      | nil => rfl
      | cons hb _ ih =>
        rw [List.map_cons, ih, hb.1]
        unfold readC; rw [hb.2]
    · intro p hp
      induction hf with
      | nil => cases hp
      | cons hb _ ih =>
        rcases List.mem_cons.1 hp with e | e
        · subst e; exact ⟨_, hb.2⟩
        · exact ih e
  · intro h a w _
    exact Sim.allocBind w trivial fun w' => Sim.pure w' ⟨rfl, getElem?_snoc _ _⟩
  · exact fun _ _ _ _ _ _ => trivial
  · exact fun h h' b a w k hp => ⟨hp.1, k.cnums (NoArr.empty h) hp.2⟩

theorem readEntry_modesR {h : Heap K C} {r : Ref} {d : Dict LM Ref} (hr : h[r]? = some (.modesR d)) :
    readEntry h r = .modesR (readModesR h d) := by unfold readEntry; rw [hr]

theorem readEntry_modesC {h : Heap K C} {r : Ref} {d : Dict LM Ref} (hr : h[r]? = some (.modesC d)) :
    readEntry h r = .modesC (readModesC h d) := by unfold readEntry; rw [hr]

/-- A new entry with the given contents. -/
theorem allocEntry_sim (e : Entry K C) (h : Heap K C) (w : WF h) :
    Sim ∅ (allocEntry e) (.ok e) (fun h' (r : ℕ) e => readEntry h' r = e ∧ h.length ≤ r ∧ r < h'.length) h := by
  cases e with
  | arr l =>
    refine ⟨h ++ [.nums l], w.append (c := .nums l) trivial, Keep.append _ _, h.length, rfl, ?_, le_rfl, by simp⟩
    unfold readEntry; rw [getElem?_snoc]
  | other =>
    refine ⟨h ++ [.other], w.append (c := .other) trivial, Keep.append _ _, h.length, rfl, ?_, le_rfl, by simp⟩
    unfold readEntry; rw [getElem?_snoc]
  | modesR m =>
    refine Sim.bind (v := .ok m) (g := fun m => (.ok (.modesR m) : Py (Entry K C))) (allocR_sim m h w) ?_
    intro h1 d m' e1 w1 k1 hd
    cases e1
    have hk := Keep.append h1 [Cell.modesR d]
    have hd' := hd.keep hk (NoArr.empty _) w1
    refine ⟨h1 ++ [.modesR d], w1.append (c := .modesR d) hd'.2, hk, h1.length, rfl, ?_, k1.1, by simp⟩
    rw [readEntry_modesR (getElem?_snoc _ _), hd'.1]
  | modesC m =>
    refine Sim.bind (v := .ok m) (g := fun m => (.ok (.modesC m) : Py (Entry K C))) (allocC_sim m h w) ?_
    intro h1 d m' e1 w1 k1 hd
    cases e1
    have hk := Keep.append h1 [Cell.modesC d]
    have hd' := hd.keep hk (NoArr.empty _)
    refine ⟨h1 ++ [.modesC d], w1.append (c := .modesC d) hd'.2, hk, h1.length, rfl, ?_, k1.1, by simp⟩
    rw [readEntry_modesC (getElem?_snoc _ _), hd'.1]

/-- A dictionary of references with contents `v`, all in memory and not before `n`. -/
structure HasTop (n : ℕ) (h : Heap K C) (d : Dict String Ref) (v : DataV K C) : Prop where
  val : readTop h d = v
  lt : ∀ p ∈ d, p.2 < h.length
  le : ∀ p ∈ d, n ≤ p.2

theorem HasTop.keep {S : Set ℕ} {n : ℕ} {h h' : Heap K C} {d : Dict String Ref} {v : DataV K C} (a : HasTop n h d v)
    (k : Keep S h h') (na : NoArr S h) (w : WF h) (hS : ∀ p ∈ d, p.2 ∉ S) : HasTop n h' d v :=
  ⟨(readTop_keep k na w a.lt hS).trans a.val, fun p hp => (a.lt p hp).trans_le k.1, a.le⟩

theorem HasTop.keep' {n : ℕ} {h h' : Heap K C} {d : Dict String Ref} {v : DataV K C} (a : HasTop n h d v)
    (k : Keep ∅ h h') (w : WF h) : HasTop n h' d v := a.keep k (NoArr.empty h) w (by simp)

theorem allocTop_sim (v : DataV K C) (h : Heap K C) (w : WF h) : Sim ∅ (allocTop v) (.ok v) (HasTop h.length) h := by
  have := Sim.mapM (K := K) (C := C) (f := fun p : String × Entry K C => do
      let r ← allocEntry p.2
      pure (p.1, r)) (I := fun h' _ => h.length ≤ h'.length)
      (P := fun h' b a => b.1 = a.1 ∧ readEntry h' b.2 = a.2 ∧ h.length ≤ b.2 ∧ b.2 < h'.length) ?_ ?_ ?_ v h w
      (fun _ _ => le_rfl)
  · refine this.weaken (fun _ _ h => h) ?_
    intro h' d m' he _ _ hf
    clear he
    refine ⟨?_, ?_, ?_⟩
    · unfold readTop
      induction hf with
      | nil => rfl
      | cons hb _ ih => rw [List.map_cons, ih, hb.1, hb.2.1]
    · intro p hp
      induction hf with
      | nil => cases hp
      | cons hb _ ih =>
        rcases List.mem_cons.1 hp with e | e
        · subst e; exact hb.2.2.2
        · exact ih e
    · intro p hp
      induction hf with
      | nil => cases hp
      | cons hb _ ih =>
        rcases List.mem_cons.1 hp with e | e
        · subst e; exact hb.2.2.1
        · exact ih e
  · intro h1 a w1 hl
    refine Sim.bind (v := .ok a.2) (g := fun _ => (.ok a : Py (String × Entry K C))) (allocEntry_sim a.2 h1 w1) ?_
    intro h2 r e he w2 k2 hr
    cases he
    exact Sim.pure w2 ⟨rfl, hr.1, hl.trans hr.2.1, hr.2.2⟩
  · exact fun h1 h2 _ _ k hl => hl.trans k.1
  · exact fun h1 h2 b a w k hp => ⟨hp.1, (readEntry_keep k (NoArr.empty _) w hp.2.2.2 (by simp)).trans hp.2.1, hp.2.2.1,
      hp.2.2.2.trans_le k.1⟩

end

end GwEcc
