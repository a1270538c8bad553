import Verif.Model.SxsFiles
import Verif.Props.LoadOptions

/-!
# C99 Downloading SXS waveforms
-/

namespace GwEcc.Sxs

open Load

variable {B : Type}

/-! ### Specification -/

/-- What a file holds, if it is there. -/
def content (disk : Disk B) (dir : List String) (name : String) : Option B := (disk.get? dir).bind fun d => d.get? name

/-- The server and the release agree with `truth` about the files of a simulation, and a file appears at its destination only
once it is complete.  Links may be missing and transfers may fail. -/
def Serves (truth : String → B) (id lev order : String) (r : Remote B) : Prop :=
  ∀ files, r.catalogue.get? id = some files → ∀ name ∈ fileNames order, ∀ url,
    files.get? ("Lev" ++ lev ++ ":" ++ name) = some url →
      (r.fetch url).1 = [] ∧ ∀ b, (r.fetch url).2 = .ok b → b = truth name

/-- What any number of calls with the same arguments can make of the disk, each of them ending, raising or being killed at any
point. -/
inductive Calls (ok : Remote B → Prop) (dataDir id lev order : String) : Disk B → Disk B → Prop
  | none (disk : Disk B) : Calls ok dataDir id lev order disk disk
  | more {disk disk1 disk2 : Disk B} {r : Remote B} : Calls ok dataDir id lev order disk disk1 → ok r →
      disk2 ∈ (download r dataDir id lev order disk1).1 → Calls ok dataDir id lev order disk disk2

/-! ### Lemmas -/

theorem fetchFile_cases (r : Remote B) (files : Dict String String) (lev name : String) (d d' : Dict String B)
    (h : d' ∈ (fetchFile r files lev name d).1 ∨ (fetchFile r files lev name d).2 = .ok d') :
    (d' = d ∧ d.has name = true) ∨ (d.get? name = none ∧ ∃ url b, files.get? ("Lev" ++ lev ++ ":" ++ name) = some url ∧
      d' = d.set name b ∧ (b ∈ (r.fetch url).1 ∨ (r.fetch url).2 = .ok b)) := by
  unfold fetchFile at h
  by_cases hh : d.has name = true
  · rw [if_pos hh] at h
    rcases h with h | h
    · cases h
    · exact Or.inl ⟨(Except.ok.inj h).symm, hh⟩
  · rw [if_neg hh] at h
    have hn : d.get? name = none := by
      rw [Dict.has_iff_get?] at hh
      cases hg : d.get? name with
      | none => rfl
      | some v => exact absurd ⟨v, hg⟩ hh
    cases hu : files.get? ("Lev" ++ lev ++ ":" ++ name) with
    | none =>
      rw [hu] at h
      rcases h with h | h
      · cases h
      · exact absurd h (by simp)
    | some url =>
      rw [hu] at h
      dsimp only at h
      right
      refine ⟨hn, url, ?_⟩
      rcases h with h | h
      · obtain ⟨b, hb, rfl⟩ := List.mem_map.mp h
        exact ⟨b, rfl, rfl, Or.inl hb⟩
      · cases hf : (r.fetch url).2 with
        | error e => rw [hf] at h; exact absurd h (by simp [Except.map])
        | ok b =>
          rw [hf] at h
          exact ⟨b, rfl, (Except.ok.inj h).symm, Or.inr rfl⟩

/-- What can happen to one file of the directory in the loop. -/
theorem fetchAll_file (r : Remote B) (files : Dict String String) (lev : String) : ∀ (names : List String) (d d' : Dict String B),
    (d' ∈ (fetchAll r files lev names d).1 ∨ (fetchAll r files lev names d).2 = .ok d') → ∀ name,
      d'.get? name = d.get? name ∨ (d.get? name = none ∧ name ∈ names ∧ ∃ url b,
        files.get? ("Lev" ++ lev ++ ":" ++ name) = some url ∧ d'.get? name = some b ∧
        (b ∈ (r.fetch url).1 ∨ (r.fetch url).2 = .ok b))
  | [], d, d', h, name => by
    rcases h with h | h
    · cases h
    · left; rw [Except.ok.inj h]
  | n :: names, d, d', h, name => by
    have step : ∀ d1, (d1 ∈ (fetchFile r files lev n d).1 ∨ (fetchFile r files lev n d).2 = .ok d1) →
        d1.get? name = d.get? name ∨ (d.get? name = none ∧ name ∈ n :: names ∧ ∃ url b,
        files.get? ("Lev" ++ lev ++ ":" ++ name) = some url ∧ d1.get? name = some b ∧
        (b ∈ (r.fetch url).1 ∨ (r.fetch url).2 = .ok b)) := by
      intro d1 h1
      rcases fetchFile_cases r files lev n d d1 h1 with ⟨rfl, _⟩ | ⟨hn, url, b, hu, rfl, hb⟩
      · exact Or.inl rfl
      · by_cases he : name = n
        · subst he
          exact Or.inr ⟨hn, List.mem_cons_self, url, b, hu, by rw [Dict.get?_set, if_pos rfl], hb⟩
        · left
          rw [Dict.get?_set, if_neg he]
    unfold fetchAll at h
    cases hf : fetchFile r files lev n d with
    | mk states out =>
      rw [hf] at h step
      cases out with
      | error e =>
        dsimp only at h
        rcases h with h | h
        · exact step d' (Or.inl h)
        · exact absurd h (by simp)
      | ok d1 =>
        dsimp only at h
        have h1 := step d1 (Or.inr rfl)
        have rest : (d' ∈ (fetchAll r files lev names d1).1 ∨ (fetchAll r files lev names d1).2 = .ok d') →
            d'.get? name = d.get? name ∨ (d.get? name = none ∧ name ∈ n :: names ∧ ∃ url b,
              files.get? ("Lev" ++ lev ++ ":" ++ name) = some url ∧ d'.get? name = some b ∧
              (b ∈ (r.fetch url).1 ∨ (r.fetch url).2 = .ok b)) := by
          intro h
          rcases fetchAll_file r files lev names d1 d' h name with h2 | ⟨h2, hm, url, b, hu, hb⟩
          · rcases h1 with h1 | ⟨h1, hm, url, b, hu, hb, ho⟩
            · exact Or.inl (h2.trans h1)
            · exact Or.inr ⟨h1, hm, url, b, hu, h2.trans hb, ho⟩
          · rcases h1 with h1 | ⟨_, _, _, b', _, hb', _⟩
            · exact Or.inr ⟨h1 ▸ h2, List.mem_cons_of_mem _ hm, url, b, hu, hb⟩
            · rw [h2] at hb'; cases hb'
        rcases h with h | h
        · rcases List.mem_append.mp h with h | h
          · exact step d' (Or.inl h)
          · rcases List.mem_cons.mp h with rfl | h
            · exact h1
            · exact rest (Or.inl h)
        · exact rest (Or.inr h)

theorem fetchAll_ok (r : Remote B) (files : Dict String String) (lev : String) : ∀ (names : List String) (d d' : Dict String B),
    (fetchAll r files lev names d).2 = .ok d' →
      (d :: (fetchAll r files lev names d).1).getLast? = some d' ∧ ∀ name ∈ names, d'.has name = true
  | [], d, d', h => by
    rw [← Except.ok.inj h]
    exact ⟨rfl, by simp⟩
  | n :: names, d, d', h => by
    unfold fetchAll at h ⊢
    cases hf : fetchFile r files lev n d with
    | mk states out =>
      cases out with
      | error e =>
        rw [hf] at h
        exact absurd h (by simp)
      | ok d1 =>
        rw [hf] at h
        dsimp only at h ⊢
        obtain ⟨h1, h2⟩ := fetchAll_ok r files lev names d1 d' h
        refine ⟨?_, ?_⟩
        · rw [← h1, ← List.cons_append]
          rw [List.getLast?_append]
          cases hl : (d1 :: (fetchAll r files lev names d1).1).getLast? with
          | none => simp at hl
          | some x => rfl
        · intro name hname
          rcases List.mem_cons.mp hname with rfl | hname
          · have hd1 : d1.has name = true := by
              rcases fetchFile_cases r files lev name d d1 (Or.inr (by rw [hf])) with ⟨rfl, hh⟩ | ⟨_, url, b, _, rfl, _⟩
              · exact hh
              · rw [Dict.has_iff_get?]
                exact ⟨b, by rw [Dict.get?_set, if_pos rfl]⟩
            rw [Dict.has_iff_get?] at hd1 ⊢
            obtain ⟨v, hv⟩ := hd1
            rcases fetchAll_file r files lev names d1 d' (Or.inr h) name with h3 | ⟨h3, _⟩
            · exact ⟨v, h3.trans hv⟩
            · rw [hv] at h3; cases h3
          · exact h2 name hname

theorem content_makeDir (disk : Disk B) (dir dir' : List String) (name : String) :
    content (makeDir disk dir) dir' name = content disk dir' name := by
  unfold makeDir content
  split
  · rfl
  · rename_i hh
    rw [Dict.get?_set]
    by_cases he : dir' = dir
    · subst he
      have hn : disk.get? dir' = none := by
        cases hg : disk.get? dir' with
        | none => rfl
        | some v => exact absurd ((Dict.has_iff_get? disk dir').mpr ⟨v, hg⟩) hh
      rw [if_pos rfl, hn]
      rfl
    · rw [if_neg he]

theorem makeDir_get (disk : Disk B) (dir : List String) : ∃ d, (makeDir disk dir).get? dir = some d := by
  unfold makeDir
  split
  · rename_i hh; exact (Dict.has_iff_get? disk dir).mp hh
  · exact ⟨[], by rw [Dict.get?_set, if_pos rfl]⟩

/-- What a call, ended or not, can make of a file. -/
theorem download_file (r : Remote B) (dataDir id lev order : String) (disk disk' : Disk B)
    (h : disk' ∈ (download r dataDir id lev order disk).1) (dir : List String) (name : String) :
    content disk' dir name = content disk dir name ∨ (content disk dir name = none ∧ dir = targetDir dataDir id lev ∧
      name ∈ fileNames order ∧ ∃ files url b, r.catalogue.get? id = some files ∧
        files.get? ("Lev" ++ lev ++ ":" ++ name) = some url ∧ content disk' dir name = some b ∧
        (b ∈ (r.fetch url).1 ∨ (r.fetch url).2 = .ok b)) := by
  unfold download at h
  dsimp only at h
  cases hc : r.catalogue.get? id with
  | none =>
    rw [hc] at h
    left
    rcases List.mem_cons.mp h with rfl | h
    · rfl
    · rw [List.mem_singleton.mp h]; exact content_makeDir _ _ _ _
  | some files =>
    rw [hc] at h
    dsimp only at h
    rcases List.mem_cons.mp h with rfl | h
    · exact Or.inl rfl
    · rcases List.mem_cons.mp h with rfl | h
      · exact Or.inl (content_makeDir _ _ _ _)
      · obtain ⟨d', hd', rfl⟩ := List.mem_map.mp h
        obtain ⟨d, hd⟩ := makeDir_get disk (targetDir dataDir id lev)
        rw [hd] at hd'
        by_cases he : dir = targetDir dataDir id lev
        · subst he
          have hcont : content ((makeDir disk (targetDir dataDir id lev)).set (targetDir dataDir id lev) d')
              (targetDir dataDir id lev) name = d'.get? name := by
            unfold content; rw [Dict.get?_set, if_pos rfl]; rfl
          have hcont0 : content disk (targetDir dataDir id lev) name = d.get? name := by
            rw [← content_makeDir disk (targetDir dataDir id lev)]
            unfold content; rw [hd]; rfl
          rw [hcont, hcont0]
          rcases fetchAll_file r files lev _ d d' (Or.inl hd') name with h1 | ⟨h1, h2, url, b, h3, h4, h5⟩
          · exact Or.inl h1
          · exact Or.inr ⟨h1, rfl, h2, files, url, b, rfl, h3, h4, h5⟩
        · left
          rw [← content_makeDir disk (targetDir dataDir id lev) dir name]
          unfold content
          rw [Dict.get?_set, if_neg he]

theorem calls_serves {truth : String → B} {dataDir id lev order : String} {disk disk' : Disk B}
    (h : Calls (Serves truth id lev order) dataDir id lev order disk disk') (dir : List String) (name : String) :
    content disk' dir name = content disk dir name ∨ (content disk dir name = none ∧ dir = targetDir dataDir id lev ∧
      name ∈ fileNames order ∧ content disk' dir name = some (truth name)) := by
  induction h with
  | none => exact Or.inl rfl
  | more h hr hm ih =>
    rename_i disk1 disk2 r
    rcases download_file r dataDir id lev order disk1 disk2 hm dir name with h1 | ⟨h1, h2, h3, files, url, b, h4, h5, h6, h7⟩
    · rw [h1]; exact ih
    · right
      have hs := hr files h4 name h3 url h5
      have hb : b = truth name := by
        rcases h7 with h7 | h7
        · rw [hs.1] at h7; cases h7
        · exact hs.2 b h7
      refine ⟨?_, h2, h3, by rw [h6, hb]⟩
      rcases ih with ih | ⟨_, _, _, ih⟩
      · rw [← ih]; exact h1
      · rw [h1] at ih; cases ih

theorem download_ok {r : Remote B} {dataDir id lev order : String} {disk : Disk B} {dir : List String}
    (h : (download r dataDir id lev order disk).2 = .ok dir) :
    dir = targetDir dataDir id lev ∧ ∃ disk', (download r dataDir id lev order disk).1.getLast? = some disk' ∧
      ∀ name ∈ fileNames order, ∃ b, content disk' dir name = some b := by
  unfold download at h ⊢
  dsimp only at h ⊢
  cases hc : r.catalogue.get? id with
  | none => rw [hc] at h; exact absurd h (by simp)
  | some files =>
    rw [hc] at h
    dsimp only at h ⊢
    obtain ⟨d, hd⟩ := makeDir_get disk (targetDir dataDir id lev)
    rw [hd] at h ⊢
    simp only [Option.getD_some] at h ⊢
    cases ho : (fetchAll r files lev (fileNames order) d).2 with
    | error e => rw [ho] at h; exact absurd h (by simp [Except.map])
    | ok d' =>
      rw [ho] at h
      have hdir : dir = targetDir dataDir id lev := (Except.ok.inj h).symm
      obtain ⟨h1, h2⟩ := fetchAll_ok r files lev _ d d' ho
      refine ⟨hdir, ?_⟩
      cases hs : (fetchAll r files lev (fileNames order) d).1 with
      | nil =>
        rw [hs] at h1
        have hdd : d = d' := by simpa using h1
        refine ⟨makeDir disk (targetDir dataDir id lev), rfl, ?_⟩
        intro name hn
        obtain ⟨v, hv⟩ := (Dict.has_iff_get? _ _).mp (h2 name hn)
        refine ⟨v, ?_⟩
        unfold content
        rw [hdir, hd]
        rw [← hdd] at hv
        exact hv
      | cons x xs =>
        rw [hs] at h1
        refine ⟨(makeDir disk (targetDir dataDir id lev)).set (targetDir dataDir id lev) d', ?_, ?_⟩
        · have h1' : (x :: xs).getLast? = some d' := by simpa using h1
          have : ((x :: xs).map fun d => (makeDir disk (targetDir dataDir id lev)).set (targetDir dataDir id lev) d).getLast? =
              some ((makeDir disk (targetDir dataDir id lev)).set (targetDir dataDir id lev) d') := by
            rw [List.getLast?_map, h1']; rfl
          rw [List.map_cons] at this ⊢
          simpa using this
        · intro name hn
          obtain ⟨v, hv⟩ := (Dict.has_iff_get? _ _).mp (h2 name hn)
          refine ⟨v, ?_⟩
          unfold content
          rw [hdir, Dict.get?_set, if_pos rfl]
          exact hv

/-! ### Theorems -/

/-- **C99, interrupted downloads.**  If a file appears only once it is complete: start from a disk on which the files wanted are
absent or right, let any number of calls end, raise or be killed at any point, and then let a call return.  It returns the
directory, which then holds all four files, with the right contents; no other file has changed. -/
theorem C99_download_partial {truth : String → B} {dataDir id lev order : String} {disk disk1 disk2 : Disk B} {r : Remote B}
    {dir : List String}
    (h0 : ∀ name ∈ fileNames order, ∀ b, content disk (targetDir dataDir id lev) name = some b → b = truth name)
    (hcalls : Calls (Serves truth id lev order) dataDir id lev order disk disk1) (hr : Serves truth id lev order r)
    (hok : (download r dataDir id lev order disk1).2 = .ok dir)
    (hlast : (download r dataDir id lev order disk1).1.getLast? = some disk2) :
    dir = targetDir dataDir id lev ∧ (∀ name ∈ fileNames order, content disk2 dir name = some (truth name)) ∧
      ∀ dir' name, dir' ≠ dir ∨ name ∉ fileNames order → content disk2 dir' name = content disk dir' name := by
  obtain ⟨hdir, disk', hl, hall⟩ := download_ok hok
  rw [hlast] at hl
  have hl := Option.some.inj hl
  subst hl
  have hcalls2 : Calls (Serves truth id lev order) dataDir id lev order disk disk2 :=
    Calls.more hcalls hr (List.mem_of_getLast? hlast)
  refine ⟨hdir, ?_, ?_⟩
  · intro name hn
    obtain ⟨b, hb⟩ := hall name hn
    rcases calls_serves hcalls2 dir name with h1 | ⟨_, _, _, h1⟩
    · rw [hb] at h1
      rw [hb, h0 name hn b (by rw [← hdir]; exact h1.symm)]
    · exact h1
  · intro dir' name hne
    rcases calls_serves hcalls2 dir' name with h1 | ⟨_, h2, h3, _⟩
    · exact h1
    · rcases hne with hne | hne
      · exact absurd (h2.trans hdir.symm) hne
      · exact absurd h3 hne

/-- **C99, files that are there are never touched**, whatever the server, the release and the fate of the call. -/
theorem C99_existing (r : Remote B) (dataDir id lev order : String) {disk disk' : Disk B}
    (h : disk' ∈ (download r dataDir id lev order disk).1) {dir : List String} {name : String} {b : B}
    (hb : content disk dir name = some b) : content disk' dir name = some b := by
  rcases download_file r dataDir id lev order disk disk' h dir name with h1 | ⟨h1, _⟩
  · rw [h1, hb]
  · rw [hb] at h1; cases h1

theorem calls_existing {ok : Remote B → Prop} {dataDir id lev order : String} {disk disk' : Disk B}
    (h : Calls ok dataDir id lev order disk disk') {dir : List String} {name : String} {b : B}
    (hb : content disk dir name = some b) : content disk' dir name = some b := by
  induction h with
  | none => exact hb
  | more _ _ hm ih => exact C99_existing _ _ _ _ _ hm ih

/-- **C99, nothing is transferred twice.**  With all four files there, a call returns at once and changes nothing. -/
theorem C99_again (r : Remote B) (dataDir id lev order : String) (disk : Disk B) {files : Dict String String}
    (hc : r.catalogue.get? id = some files)
    (hall : ∀ name ∈ fileNames order, (content disk (targetDir dataDir id lev) name).isSome = true) :
    (download r dataDir id lev order disk).2 = .ok (targetDir dataDir id lev) ∧
      ∀ disk' ∈ (download r dataDir id lev order disk).1, ∀ dir name, content disk' dir name = content disk dir name := by
  refine ⟨?_, ?_⟩
  · unfold download
    dsimp only
    rw [hc]
    dsimp only
    have hgen : ∀ (names : List String) (d : Dict String B), (∀ name ∈ names, d.has name = true) →
        (fetchAll r files lev names d).2 = .ok d := by
      intro names
      induction names with
      | nil => intro d _; rfl
      | cons n names ih =>
        intro d hd
        have hf : fetchFile r files lev n d = ([], .ok d) := by
          unfold fetchFile
          rw [if_pos (hd n List.mem_cons_self)]
        unfold fetchAll
        rw [hf]
        exact ih d fun m hm => hd m (List.mem_cons_of_mem _ hm)
    obtain ⟨d, hd⟩ := makeDir_get disk (targetDir dataDir id lev)
    rw [hd, Option.getD_some, hgen _ d]
    · rfl
    · intro name hn
      have := hall name hn
      rw [← content_makeDir disk (targetDir dataDir id lev)] at this
      unfold content at this
      rw [hd] at this
      exact this
  · intro disk' hm dir name
    rcases download_file r dataDir id lev order disk disk' hm dir name with h1 | ⟨h1, h2, h3, _⟩
    · exact h1
    · have := hall name h3
      rw [← h2, h1] at this
      cases this

/-- **C99, the directory can be loaded.**  After a call that returned, the loader of the new format accepts the directory for the
same extrapolation order, whatever is asked for, and finds the horizon data. -/
theorem C99_accepted {r : Remote B} {dataDir id lev order : String} {disk disk2 : Disk B} {dir : List String}
    (hok : (download r dataDir id lev order disk).2 = .ok dir)
    (hlast : (download r dataDir id lev order disk).1.getLast? = some disk2) (needMetadata : Bool) :
    ∃ d, disk2.get? dir = some d ∧ checkSxsDir true order needMetadata (some (some d.keys)) = .ok true := by
  obtain ⟨hdir, disk', hl, hall⟩ := download_ok hok
  rw [hlast] at hl
  have hl := Option.some.inj hl
  subst hl
  obtain ⟨b0, hb0⟩ := hall "metadata.json" (by simp [fileNames])
  unfold content at hb0 hall
  cases hd : disk2.get? dir with
  | none => rw [hd] at hb0; cases hb0
  | some d =>
    rw [hd] at hall
    refine ⟨d, rfl, ?_⟩
    have hk : ∀ name ∈ fileNames order, name ∈ d.keys := by
      intro name hn
      rw [← Dict.has_iff, Dict.has_iff_get?]
      exact hall name hn
    rw [C71_required]
    refine ⟨d.keys, rfl, ?_, ?_, ?_, ?_⟩
    · simp only [true_iff]; exact hk _ (by simp [fileNames])
    · intro _; exact ⟨hk _ (by simp [fileNames]), hk _ (by simp [fileNames])⟩
    · intro h; cases h
    · intro _; exact hk _ (by simp [fileNames])

/-- **C99, unknown simulations** raise `ValueError`, after the directory has been made. -/
theorem C99_unknown (r : Remote B) (dataDir id lev order : String) (disk : Disk B) (hc : r.catalogue.get? id = none) :
    (download r dataDir id lev order disk).2 = .error .valueError ∧
      ∃ disk', (download r dataDir id lev order disk).1.getLast? = some disk' ∧
        ∃ d, disk'.get? (targetDir dataDir id lev) = some d := by
  unfold download
  dsimp only
  rw [hc]
  exact ⟨rfl, _, rfl, makeDir_get _ _⟩

/-- **C99, directories.**  Simulations whose names have no underscore, and levels, have directories of their own. -/
theorem C99_directories {dataDir id id' lev lev' : String} (h : targetDir dataDir id lev = targetDir dataDir id' lev')
    (hid : '_' ∉ id.toList) (hid' : '_' ∉ id'.toList) : id = id' ∧ lev = lev' := by
  unfold targetDir at h
  simp only [List.cons.injEq, true_and, and_true] at h
  obtain ⟨h1, h2⟩ := h
  refine ⟨?_, ?_⟩
  · have hl : id.toList.map (fun c => if c = ':' then '_' else c) = id'.toList.map (fun c => if c = ':' then '_' else c) := by
      have := congrArg String.toList h1
      simpa [safeId] using this
    have hinj : ∀ (a b : List Char), '_' ∉ a → '_' ∉ b →
        a.map (fun c => if c = ':' then '_' else c) = b.map (fun c => if c = ':' then '_' else c) → a = b := by
      intro a
      induction a with
      | nil => intro b _ _ h; cases b with
        | nil => rfl
        | cons x b => cases h
      | cons x a ih =>
        intro b ha hb h
        cases b with
        | nil => cases h
        | cons y b =>
          simp only [List.map_cons, List.cons.injEq] at h
          have hx : x ≠ '_' := fun e => ha (by rw [e]; exact List.mem_cons_self)
          have hy : y ≠ '_' := fun e => hb (by rw [e]; exact List.mem_cons_self)
          have hxy : x = y := by
            obtain ⟨h, _⟩ := h
            split_ifs at h with h1 h2 h2
            · rw [h1, h2]
            · exact absurd h.symm hy
            · exact absurd h hx
            · exact h
          rw [hxy, ih b (fun e => ha (List.mem_cons_of_mem _ e)) (fun e => hb (List.mem_cons_of_mem _ e)) h.2]
    exact String.ext (hinj _ _ hid hid' hl)
  · have := congrArg String.toList h2
    simp only [String.toList_append] at this
    exact String.ext (List.append_cancel_left this)

/-- **C99 is false of the code when a file appears before it is complete** (a transfer that writes to its destination): a call killed
meanwhile leaves the fragment `b`, and all later calls take it for the file; they return and the loader's check accepts the
directory. -/
theorem C99_fragment_violation {r : Remote B} {dataDir id lev order : String} {files : Dict String String} {url : String} {b : B}
    (hc : r.catalogue.get? id = some files)
    (hu : files.get? ("Lev" ++ lev ++ ":" ++ ("Strain_N" ++ order ++ ".h5")) = some url) (hb : b ∈ (r.fetch url).1) :
    ∃ disk1 ∈ (download r dataDir id lev order []).1, ∀ (ok : Remote B → Prop) (disk2 disk3 : Disk B) (r' : Remote B) dir,
      Calls ok dataDir id lev order disk1 disk2 → (download r' dataDir id lev order disk2).2 = .ok dir →
      (download r' dataDir id lev order disk2).1.getLast? = some disk3 →
      content disk3 dir ("Strain_N" ++ order ++ ".h5") = some b ∧
      ∃ d, disk3.get? dir = some d ∧ checkSxsDir true order true (some (some d.keys)) = .ok true := by
  have hmk : makeDir ([] : Disk B) (targetDir dataDir id lev) = [(targetDir dataDir id lev, [])] := rfl
  refine ⟨Dict.set [(targetDir dataDir id lev, [])] (targetDir dataDir id lev) [("Strain_N" ++ order ++ ".h5", b)], ?_, ?_⟩
  · unfold download
    dsimp only
    rw [hc]
    dsimp only
    refine List.mem_cons_of_mem _ (List.mem_cons_of_mem _ ?_)
    rw [hmk]
    refine List.mem_map.mpr ⟨[("Strain_N" ++ order ++ ".h5", b)], ?_, rfl⟩
    have hget : (Dict.get? ([(targetDir dataDir id lev, [])] : Disk B) (targetDir dataDir id lev)).getD [] = [] := by
      rw [Dict.get?_cons, if_pos rfl]; rfl
    rw [hget]
    have hf : fetchFile r files lev ("Strain_N" ++ order ++ ".h5") ([] : Dict String B) =
        ((r.fetch url).1.map fun b => [("Strain_N" ++ order ++ ".h5", b)],
         (r.fetch url).2.map fun b => [("Strain_N" ++ order ++ ".h5", b)]) := by
      unfold fetchFile
      rw [if_neg (by simp [Dict.has]), hu]
      rfl
    unfold fileNames fetchAll
    rw [hf]
    cases (r.fetch url).2 with
    | error e => exact List.mem_map.mpr ⟨b, hb, rfl⟩
    | ok b' => exact List.mem_append_left _ (List.mem_map.mpr ⟨b, hb, rfl⟩)
  · intro ok disk2 disk3 r' dir hcalls hok hlast
    have h0 : content (Dict.set [(targetDir dataDir id lev, [])] (targetDir dataDir id lev) [("Strain_N" ++ order ++ ".h5", b)])
        (targetDir dataDir id lev) ("Strain_N" ++ order ++ ".h5") = some b := by
      unfold content
      rw [Dict.get?_set, if_pos rfl]
      simp [Dict.get?_cons]
    have h1 := calls_existing hcalls h0
    have h2 := C99_existing r' dataDir id lev order (List.mem_of_getLast? hlast) h1
    rw [(download_ok hok).1]
    refine ⟨h2, ?_⟩
    rw [← (download_ok hok).1]
    exact C99_accepted hok hlast true

end GwEcc.Sxs

namespace GwEcc.Sxs.Demo

/-- Release 1 of a simulation and release 2, in which the strain differs; the contents are numbers. -/
def remote (release : ℕ) (atomic : Bool) : Remote ℕ where
  catalogue := [("SXS:BBH:1", [("Lev3:Strain_N2.h5", "s"), ("Lev3:Strain_N2.json", "j"), ("Lev3:metadata.json", "m"),
    ("Lev3:Horizons.h5", "h")])]
  fetch := fun url => (if atomic then [] else [0], .ok (if url = "s" then release else 7 + release))

def right (name : String) : ℕ := if name = "Strain_N2.h5" then 1 else 8

set_option maxRecDepth 4000 in
theorem serves : Serves right "SXS:BBH:1" "3" "2" (remote 1 true) := by
  intro files hf name hn url hu
  refine ⟨rfl, ?_⟩
  intro b hb
  have hf : files = [("Lev3:Strain_N2.h5", "s"), ("Lev3:Strain_N2.json", "j"), ("Lev3:metadata.json", "m"),
    ("Lev3:Horizons.h5", "h")] := by
    have h : (remote 1 true).catalogue.get? "SXS:BBH:1" = some [("Lev3:Strain_N2.h5", "s"), ("Lev3:Strain_N2.json", "j"),
      ("Lev3:metadata.json", "m"), ("Lev3:Horizons.h5", "h")] := by decide +kernel
    rw [h] at hf
    exact (Option.some.inj hf).symm
  subst hf
  have hb' : b = if url = "s" then 1 else 8 := (Except.ok.inj hb).symm
  have hn' : name = "Strain_N2.h5" ∨ name = "Strain_N2.json" ∨ name = "metadata.json" ∨ name = "Horizons.h5" := by
    simpa [fileNames] using hn
  rw [hb']
  rcases hn' with rfl | rfl | rfl | rfl
  · have : url = "s" := (Option.some.inj (hu.symm.trans (by decide +kernel : _ = some "s")))
    rw [this]; decide +kernel
  · have : url = "j" := (Option.some.inj (hu.symm.trans (by decide +kernel : _ = some "j")))
    rw [this]; decide +kernel
  · have : url = "m" := (Option.some.inj (hu.symm.trans (by decide +kernel : _ = some "m")))
    rw [this]; decide +kernel
  · have : url = "h" := (Option.some.inj (hu.symm.trans (by decide +kernel : _ = some "h")))
    rw [this]; decide +kernel

-- a fresh call returns, and passes through the state with two files
example : (download (remote 1 true) "d" "SXS:BBH:1" "3" "2" []).2.toOption = some ["d", "SXS_BBH_1", "Lev3"] := by decide +kernel

example : [(["d", "SXS_BBH_1", "Lev3"], [("Strain_N2.h5", 1), ("Strain_N2.json", 8)])] ∈
    (download (remote 1 true) "d" "SXS:BBH:1" "3" "2" []).1 := by decide +kernel

-- a transfer that writes to its destination passes through the fragment 0
example : (0 : ℕ) ∈ ((remote 1 false).fetch "s").1 := by decide +kernel

/-- **C99 is false of the code for the release** (documentation of `catalog_tag`: the "release to use"): a call for release 1 is
killed after two files; a call for release 2 returns, and the directory holds the strain of release 1 with the metadata of
release 2. -/
theorem C99_release_violation :
    ∃ disk1 ∈ (download (remote 1 true) "d" "SXS:BBH:1" "3" "2" []).1, ∃ disk2,
      (download (remote 2 true) "d" "SXS:BBH:1" "3" "2" disk1).1.getLast? = some disk2 ∧
      (download (remote 2 true) "d" "SXS:BBH:1" "3" "2" disk1).2 = .ok ["d", "SXS_BBH_1", "Lev3"] ∧
      ((remote 1 true).fetch "s").2 = .ok 1 ∧ ((remote 2 true).fetch "s").2 = .ok 2 ∧
      ((remote 1 true).fetch "m").2 = .ok 8 ∧ ((remote 2 true).fetch "m").2 = .ok 9 ∧
      content disk2 ["d", "SXS_BBH_1", "Lev3"] "Strain_N2.h5" = some 1 ∧
      content disk2 ["d", "SXS_BBH_1", "Lev3"] "metadata.json" = some 9 :=
  ⟨[(["d", "SXS_BBH_1", "Lev3"], [("Strain_N2.h5", 1), ("Strain_N2.json", 8)])], by decide +kernel,
   [(["d", "SXS_BBH_1", "Lev3"], [("Strain_N2.h5", 1), ("Strain_N2.json", 8), ("metadata.json", 9), ("Horizons.h5", 9)])],
   by decide +kernel, by rfl, by rfl, by rfl, by rfl, by rfl, by decide +kernel, by decide +kernel⟩

end GwEcc.Sxs.Demo
