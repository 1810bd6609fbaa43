import Verif.Model.Files
import Verif.Lemmas.Maps
import Verif.Props.MapFns
/-
C22 (temporary files), C23 (file cache), C57 (execution cache), C48 (state file).
-/
namespace Spiff

/-! C22 -/

/-- every recorded name denotes a file, different contents have different files -/
structure TempOK (s : TempState) : Prop where
  keys : MapOK s.files
  exist : ∀ h n, mget s.files h = some n → mget s.fs n ≠ none
  inj : ∀ h h' n, mget s.files h = some n → mget s.files h' = some n → h = h'

theorem tempOK_new (fs : FileSys) : TempOK { files := [], fs := fs } :=
  ⟨by simp [MapOK, mkeys], by simp [mget], by simp [mget]⟩

theorem getTempName_ok {c : TempCfg} (hc : c.Fresh) {s : TempState} (h : TempOK s) (d : Bytes) : TempOK (getTempName c s d).1 := by
  unfold getTempName
  split
  · split
    · exact h
    · next hn =>
      split
      · exact h
      · next n hf =>
        have hfresh := hc _ _ hf
        refine ⟨MapOK_mset h.keys _ _, ?_, ?_⟩
        · intro k m hk
          simp only [mget_mset] at hk ⊢
          split at hk
          · cases hk; simp
          · split
            · simp
            · exact h.exist k m hk
        · intro k k' m hk hk'
          simp only [mget_mset] at hk hk'
          split at hk <;> split at hk'
          · next h1 h2 => rw [h1, h2]
          · cases hk; exact absurd hfresh (h.exist _ _ hk')
          · cases hk'; exact absurd hfresh (h.exist _ _ hk)
          · exact h.inj k k' m hk hk'
  · exact h

theorem tempfile_ok {c : TempCfg} (hc : c.Fresh) {s : TempState} (h : TempOK s) (d : Bytes) : TempOK (tempfile c s d).1 := by
  have h1 := getTempName_ok hc h d
  unfold tempfile
  split
  · next s' n heq =>
    rw [heq] at h1
    refine ⟨h1.keys, ?_, h1.inj⟩
    intro k m hk
    simp only [mget_mset]
    split
    · simp
    · exact h1.exist k m hk
  · next s' heq => rw [heq] at h1; exact h1

theorem tempfiles_ok {c : TempCfg} (hc : c.Fresh) {s : TempState} (h : TempOK s) (ds : List Bytes) : TempOK (tempfiles c s ds) := by
  induction ds generalizing s with
  | nil => exact h
  | cons d r ih => exact ih (tempfile_ok hc h d)

/-- what a request does -/
theorem tempfile_recorded {c : TempCfg} {s : TempState} {d : Bytes} {n : String} (h : (tempfile c s d).2 = some n) :
    mget (tempfile c s d).1.files (c.hash d) = some n ∧ mget (tempfile c s d).1.fs n = some d ∧ c.allowed = true := by
  unfold tempfile getTempName at h ⊢
  by_cases ha : c.allowed
  · simp only [ha, if_true] at h ⊢
    rcases hg : mget s.files (c.hash d) with _ | m
    · rcases ht : c.tempFile s.fs with _ | m
      · simp [hg, ht] at h
      · simp only [hg, ht, Option.some.injEq] at h ⊢
        subst h
        simp [mget_mset]
    · simp only [hg, Option.some.injEq] at h ⊢
      subst h
      simp [mget_mset, hg]
  · simp [ha] at h

theorem tempfile_keeps {c : TempCfg} {s : TempState} {d : Bytes} {k n : String} (h : mget s.files k = some n) :
    mget (tempfile c s d).1.files k = some n := by
  unfold tempfile getTempName
  by_cases ha : c.allowed
  · simp only [ha, if_true]
    rcases hg : mget s.files (c.hash d) with _ | m
    · rcases ht : c.tempFile s.fs with _ | m
      · simpa [hg, ht] using h
      · simp only [mget_mset]
        split
        · next hk => rw [hk, hg] at h; cases h
        · exact h
    · exact h
  · simp only [ha]; exact h

theorem tempfiles_keeps {c : TempCfg} {s : TempState} (ds : List Bytes) {k n : String} (h : mget s.files k = some n) :
    mget (tempfiles c s ds).files k = some n := by
  induction ds generalizing s with
  | nil => exact h
  | cons d r ih => exact ih (tempfile_keeps h)

/-- C22: the same content yields the same name, whatever is requested in between. -/
theorem temp_same_name (c : TempCfg) (s : TempState) (d : Bytes) (n : String) (h : (tempfile c s d).2 = some n) (ds : List Bytes) :
    (tempfile c (tempfiles c (tempfile c s d).1 ds) d).2 = some n := by
  obtain ⟨h1, _, ha⟩ := tempfile_recorded h
  have := tempfiles_keeps (c := c) ds h1
  generalize tempfiles c (tempfile c s d).1 ds = s' at this
  simp [tempfile, getTempName, ha, this]

/-- C22: contents with different hashes get different files, whatever is requested in between. -/
theorem temp_different_names (c : TempCfg) (hc : c.Fresh) (s : TempState) (hs : TempOK s) (d d' : Bytes) (hd : c.hash d ≠ c.hash d') (n n' : String)
    (h : (tempfile c s d).2 = some n) (ds : List Bytes) (h' : (tempfile c (tempfiles c (tempfile c s d).1 ds) d').2 = some n') : n ≠ n' := by
  intro hn
  subst hn
  have h1 := tempfile_keeps (c := c) (d := d') (tempfiles_keeps (c := c) ds (tempfile_recorded h).1)
  have h2 := (tempfile_recorded h').1
  exact hd ((tempfile_ok hc (tempfiles_ok hc (tempfile_ok hc hs d) ds) d').inj _ _ _ h1 h2)

theorem tempfile_content {c : TempCfg} (hc : c.Fresh) {s : TempState} (hs : TempOK s) {d d' : Bytes} {n : String} (h : mget s.files (c.hash d) = some n)
    (hf : mget s.fs n = some d) (hd : c.hash d' = c.hash d → d' = d) : mget (tempfile c s d').1.fs n = some d := by
  unfold tempfile getTempName
  by_cases ha : c.allowed
  · simp only [ha, if_true]
    rcases hg : mget s.files (c.hash d') with _ | m
    · rcases ht : c.tempFile s.fs with _ | m
      · exact hf
      · have := hc _ _ ht
        have hne : n ≠ m := by rintro rfl; rw [hf] at this; cases this
        simp [mget_mset, hne, hf]
    · simp only [mget_mset]
      split
      · next hk =>
        subst hk
        rw [hd (hs.inj _ _ _ hg h)]
      · exact hf
  · simp only [ha]; exact hf

/-- C22: the file has the content requested, whatever is requested in between (unless there is a hash collision). -/
theorem temp_content (c : TempCfg) (hc : c.Fresh) (s : TempState) (hs : TempOK s) (d : Bytes) (n : String) (h : (tempfile c s d).2 = some n)
    (ds : List Bytes) (hd : ∀ d' ∈ ds, c.hash d' = c.hash d → d' = d) : mget (tempfiles c (tempfile c s d).1 ds).fs n = some d := by
  obtain ⟨h1, h2, _⟩ := tempfile_recorded h
  have hok := tempfile_ok hc hs d
  generalize (tempfile c s d).1 = s' at h1 h2 hok
  induction ds generalizing s' with
  | nil => exact h2
  | cons d' r ih =>
    exact ih (fun x hx => hd x (by simp [hx])) _ (tempfile_keeps h1) (tempfile_content hc hok h1 h2 (hd d' (by simp))) (tempfile_ok hc hok d')

/-- all files not present at the beginning are recorded, the others are untouched -/
def Recorded (fs0 : FileSys) (s : TempState) : Prop :=
  (∀ h n, mget s.files h = some n → mget fs0 n = none) ∧ ∀ n, (∀ h, mget s.files h ≠ some n) → mget s.fs n = mget fs0 n

theorem recorded_step {c : TempCfg} (hc : c.Fresh) {fs0 : FileSys} {s : TempState} (hs : TempOK s) (h : Recorded fs0 s) (d : Bytes) :
    Recorded fs0 (tempfile c s d).1 := by
  unfold tempfile getTempName
  by_cases ha : c.allowed
  · simp only [ha, if_true]
    rcases hg : mget s.files (c.hash d) with _ | m
    · rcases ht : c.tempFile s.fs with _ | m
      · exact h
      · have hfresh := hc _ _ ht
        have hm : mget fs0 m = none := by
          rw [← h.2 m (fun k hk => hs.exist k m hk hfresh)]; exact hfresh
        refine ⟨?_, ?_⟩
        · intro k n hk
          simp only [mget_mset] at hk
          split at hk
          · cases hk; exact hm
          · exact h.1 k n hk
        · intro n hn
          have hne : n ≠ m := by
            rintro rfl
            exact hn (c.hash d) (by simp [mget_mset])
          simp only [mget_mset, hne, if_false]
          refine h.2 n fun k hk => ?_
          have hk' := hn k
          simp only [mget_mset] at hk'
          split at hk'
          · next h1 => rw [h1, hg] at hk; cases hk
          · exact hk' hk
    · refine ⟨h.1, fun n hn => ?_⟩
      have hne : n ≠ m := by rintro rfl; exact hn _ hg
      simp only [mget_mset, hne, if_false]
      exact h.2 n hn
  · simp only [ha]; exact h

theorem recorded_all {c : TempCfg} (hc : c.Fresh) {fs0 : FileSys} {s : TempState} (hs : TempOK s) (h : Recorded fs0 s) (ds : List Bytes) :
    Recorded fs0 (tempfiles c s ds) := by
  induction ds generalizing s with
  | nil => exact h
  | cons d r ih => exact ih (tempfile_ok hc hs d) (recorded_step hc hs h d)

theorem mget_delAll (l : List (String × String)) (fs : FileSys) (n : String) :
    mget (l.foldl (fun fs e => mdel fs e.2) fs) n = if n ∈ l.map Prod.snd then none else mget fs n := by
  induction l generalizing fs with
  | nil => simp
  | cons e r ih =>
    simp only [List.foldl_cons, ih, mget_mdel, List.map_cons, List.mem_cons]
    by_cases h1 : n ∈ r.map Prod.snd
    · simp [h1]
    · by_cases h2 : n = e.2 <;> simp [h1, h2]

/-- C22: a processing without outer binding leaves no temporary file behind and changes no other file. -/
theorem temp_removed (c : TempCfg) (hc : c.Fresh) (fs : FileSys) (ds : List Bytes) (n : String) :
    mget (nestedFlowFiles c none fs ds).fs n = mget fs n := by
  have hr := recorded_all hc (tempOK_new fs) (fs0 := fs) ⟨by simp [mget], fun _ _ => rfl⟩ ds
  have hok := tempfiles_ok hc (tempOK_new fs) ds
  simp only [nestedFlowFiles, cleanupFiles]
  rw [mget_delAll]
  split
  · next h =>
    obtain ⟨e, he, rfl⟩ := List.mem_map.1 h
    exact (hr.1 e.1 e.2 (mget_of_mem hok.keys he)).symm
  · next h =>
    refine hr.2 n fun k hk => h (List.mem_map.2 ⟨(k, n), mget_some_mem hk, rfl⟩)

/-- C22: with an outer binding (always in case of the library, and for some options of the command) no temporary file is removed. -/
theorem temp_leak_defect (c : TempCfg) (hc : c.Fresh) (s : TempState) (hs : TempOK s) (fs : FileSys) (d : Bytes) (n : String)
    (h : (tempfile c s d).2 = some n) (ds : List Bytes) : mget (nestedFlowFiles c (some s) fs (d :: ds)).fs n ≠ none :=
  (tempfiles_ok hc (tempfile_ok hc hs d) ds).exist _ _ (tempfiles_keeps ds (tempfile_recorded h).1)

/-- Without file access nothing is created. -/
theorem temp_denied (c : TempCfg) (ha : c.allowed = false) (s : TempState) (d : Bytes) : tempfile c s d = (s, none) := by
  simp [tempfile, getTempName, ha]

/-- An instance of the parameters: a name longer than all present ones. -/
def longName (fs : FileSys) : String := String.ofList (List.replicate (1 + (fs.map (fun e => e.1.toList.length)).sum) 'x')

def cfgExample : TempCfg := ⟨true, fun d => toString d, fun fs => some (longName fs)⟩

theorem cfgExample_fresh : cfgExample.Fresh := by
  intro fs n h
  simp only [cfgExample, Option.some.injEq] at h
  rcases hg : mget fs n with _ | d
  · rfl
  · exfalso
    have hm := mget_some_mem hg
    have hle : n.toList.length ≤ (fs.map (fun e => e.1.toList.length)).sum := by
      clear hg h
      induction fs with
      | nil => simp at hm
      | cons e r ih =>
        simp only [List.map_cons, List.sum_cons]
        rcases List.mem_cons.1 hm with rfl | hm
        · simp
        · have := ih hm; omega
    rw [← h] at hle
    simp only [longName, String.toList_ofList, List.length_replicate] at hle
    omega

example : (tempfile cfgExample {} [1]).2 = some (longName []) ∧ TempOK ({} : TempState) := ⟨rfl, tempOK_new []⟩

/-! C23 -/

/-- The file content last read successfully from `key` in a history (specification, most recent request first). -/
def lastRead (home key : String) : List ReadOp → Option Bytes
  | [] => none
  | op :: r =>
    if filePath home op.file = key then
      match lastRead home key r, op.cached with
      | some d, true => some d
      | prev, _ => match op.world key with
        | some d => some d
        | none => prev
    else lastRead home key r

theorem readAll_append (home : String) (cache : List (String × Bytes)) (a b : List ReadOp) :
    readAll home cache (a ++ b) = readAll home (readAll home cache a) b := by
  induction a generalizing cache with
  | nil => rfl
  | cons x r ih => simp [readAll, ih]

theorem cache_step (home : String) (cache : List (String × Bytes)) (op : ReadOp) (key : String) :
    mget (getFileContent home cache op.world op.file op.cached).1 key =
      if filePath home op.file = key then
        (match mget cache key, op.cached with
        | some d, true => some d
        | prev, _ => match op.world key with
          | some d => some d
          | none => prev)
      else mget cache key := by
  unfold getFileContent
  by_cases hk : filePath home op.file = key
  · subst hk
    rw [if_pos rfl]
    rcases hc : mget cache (filePath home op.file) with _ | d
    · rcases hw : op.world (filePath home op.file) with _ | e
      · simp [hc]
      · simp [mget_mset]
    · rcases ho : op.cached
      · rcases hw : op.world (filePath home op.file) with _ | e
        · simp [hc]
        · simp [mget_mset]
      · simp [hc]
  · rw [if_neg hk]
    rcases hc : mget cache (filePath home op.file) with _ | d
    · rcases hw : op.world (filePath home op.file) with _ | e
      · simp
      · simp [mget_mset, Ne.symm hk]
    · rcases ho : op.cached
      · rcases hw : op.world (filePath home op.file) with _ | e
        · simp
        · simp [mget_mset, Ne.symm hk]
      · simp

theorem cache_lastRead (home : String) (h : List ReadOp) (key : String) : mget (readAll home [] h) key = lastRead home key h.reverse := by
  suffices hh : ∀ h : List ReadOp, mget (readAll home [] h.reverse) key = lastRead home key h by
    have := hh h.reverse
    rwa [List.reverse_reverse] at this
  intro h
  induction h with
  | nil => rfl
  | cons op r ih =>
    rw [List.reverse_cons, readAll_append]
    simp only [readAll]
    rw [cache_step, ih]
    rfl

/-- C23: after any history of reads, a cached read yields the content of the last successful real read of this file; if there is none, or
without caching, the present content. -/
theorem read_result (home : String) (h : List ReadOp) (op : ReadOp) :
    (getFileContent home (readAll home [] h) op.world op.file op.cached).2 =
      match lastRead home (filePath home op.file) h.reverse, op.cached with
      | some d, true => some d
      | _, _ => op.world (filePath home op.file) := by
  unfold getFileContent
  rw [cache_lastRead]
  rcases hc : lastRead home (filePath home op.file) h.reverse with _ | d
  · rcases hw : op.world (filePath home op.file) <;> simp
  · rcases ho : op.cached
    · rcases hw : op.world (filePath home op.file) <;> simp
    · simp

/-- C23: an uncached read yields the present content. -/
theorem uncached_read (home : String) (cache : List (String × Bytes)) (world : String → Option Bytes) (file : String) :
    (getFileContent home cache world file false).2 = world (filePath home file) := by
  unfold getFileContent
  rcases hc : mget cache (filePath home file) <;> rcases hw : world (filePath home file) <;> simp

/-- C23: reads of other files have no effect. -/
theorem other_reads (home : String) (h1 h2 : List ReadOp) (op x : ReadOp) (hne : filePath home x.file ≠ filePath home op.file) :
    (getFileContent home (readAll home [] (h1 ++ x :: h2)) op.world op.file op.cached).2 =
    (getFileContent home (readAll home [] (h1 ++ h2)) op.world op.file op.cached).2 := by
  have hl : lastRead home (filePath home op.file) (h1 ++ x :: h2).reverse = lastRead home (filePath home op.file) (h1 ++ h2).reverse := by
    simp only [List.reverse_append, List.reverse_cons, List.append_assoc, List.singleton_append]
    generalize h2.reverse = l
    induction l with
    | nil => simp [lastRead, hne]
    | cons a r ih => simp only [List.cons_append, lastRead, ih]
  rw [read_result, read_result, hl]

/-- An instance: a changed file is seen by an uncached read only. -/
example :
    let w1 : String → Option Bytes := fun _ => some [1]
    let w2 : String → Option Bytes := fun _ => some [2]
    (getFileContent "" (readAll "" [] [⟨"f", true, w1⟩]) w2 "f" true).2 = some [1] ∧
    (getFileContent "" (readAll "" [] [⟨"f", true, w1⟩]) w2 "f" false).2 = some [2] := by
  constructor <;> rfl

/-! C57 -/

/-- C57: without a cache the command is always run. -/
theorem exec_uncached (home : String) (hash : List Char → String) (content : Option String) (args : List String) (o : Outcome) :
    cachedExecute home hash none content args o = (none, true, if o.failed then none else some o.output) := rfl

/-- an execution request -/
structure ExecOp where
  content : Option String
  args : List String
  outcome : Outcome

/-- What identifies a command execution: the text consisting of the input (if there is any), the path of the command and all its
arguments, one after the other. -/
def callText (home : String) (input : Option String) : List String → List Char
  | [] => (input.getD "").toList
  | command :: arguments => (input.getD "").toList ++ (filePath home command).toList ++ arguments.flatMap String.toList

theorem execInput_eq (home : String) (content : Option String) (args : List String) :
    execInput home content args = callText home content args := by
  cases content <;> cases args <;> simp [execInput, callText, List.flatMap]

/-- a history of cached executions, with the outcomes if they were run -/
def execAll (home : String) (hash : List Char → String) (m : List (String × Bytes)) : List ExecOp → List (String × Bytes)
  | [] => m
  | op :: r => match (cachedExecute home hash (some m) op.content op.args op.outcome).1 with
    | some m' => execAll home hash m' r
    | none => execAll home hash m r

/-- The output of the first command in the history with this hash that produced some output. -/
def firstOutput (home : String) (hash : List Char → String) (key : String) : List ExecOp → Option Bytes
  | [] => none
  | op :: r => if hash (callText home op.content op.args) = key then
      match op.outcome.output with
      | some d => some d
      | none => firstOutput home hash key r
    else firstOutput home hash key r

theorem exec_step (home : String) (hash : List Char → String) (m : List (String × Bytes)) (op : ExecOp) :
    ∃ m', (cachedExecute home hash (some m) op.content op.args op.outcome).1 = some m' ∧ ∀ key, mget m' key =
      match mget m key with
      | some d => some d
      | none => if hash (callText home op.content op.args) = key then op.outcome.output else none := by
  simp only [cachedExecute, execInput_eq]
  rcases hg : mget m (hash (callText home op.content op.args)) with _ | d
  · rcases ho : op.outcome.output with _ | d
    · refine ⟨_, rfl, fun key => ?_⟩
      simp only [mget_mdel]
      by_cases hk : key = hash (callText home op.content op.args)
      · subst hk; simp [hg]
      · simp only [hk, if_false]
        rcases mget m key <;> simp
    · refine ⟨_, rfl, fun key => ?_⟩
      simp only [mget_mset]
      by_cases hk : key = hash (callText home op.content op.args)
      · subst hk; simp [hg]
      · simp only [hk, Ne.symm hk, if_false]
        rcases mget m key <;> simp
  · refine ⟨m, rfl, fun key => ?_⟩
    rcases hm : mget m key with _ | e
    · by_cases hk : hash (callText home op.content op.args) = key
      · rw [← hk, hg] at hm; cases hm
      · simp [hk]
    · rfl

theorem execAll_get (home : String) (hash : List Char → String) (h : List ExecOp) (m : List (String × Bytes)) (key : String) :
    mget (execAll home hash m h) key = match mget m key with
      | some d => some d
      | none => firstOutput home hash key h := by
  induction h generalizing m with
  | nil => simp only [execAll, firstOutput]; rcases mget m key <;> rfl
  | cons op r ih =>
    obtain ⟨m', h1, h2⟩ := exec_step home hash m op
    simp only [execAll, h1, ih, h2, firstOutput]
    rcases mget m key with _ | d
    · by_cases hk : hash (callText home op.content op.args) = key
      · simp only [hk, if_true]
      · simp [hk]
    · rfl

/-- C57: a cached execution is run iff no earlier one with the same hash of the concatenation of input, command and arguments produced
output; otherwise the first of these outputs is returned. -/
theorem exec_cached (home : String) (hash : List Char → String) (h : List ExecOp) (op : ExecOp) :
    (cachedExecute home hash (some (execAll home hash [] h)) op.content op.args op.outcome).2 =
      match firstOutput home hash (hash (callText home op.content op.args)) h with
      | some d => (false, some (some d))
      | none => (true, if op.outcome.failed then none else some op.outcome.output) := by
  have := execAll_get home hash h [] (hash (callText home op.content op.args))
  simp only [mget] at this
  simp only [cachedExecute, execInput_eq, this]
  rcases firstOutput home hash (hash (callText home op.content op.args)) h <;> rfl

/-- C57: assuming no hash collisions, executions with another concatenation of input, command and arguments have no influence. -/
theorem exec_independent (home : String) (hash : List Char → String) (hh : Function.Injective hash) (h1 h2 : List ExecOp) (x op : ExecOp)
    (hne : callText home x.content x.args ≠ callText home op.content op.args) :
    (cachedExecute home hash (some (execAll home hash [] (h1 ++ x :: h2))) op.content op.args op.outcome).2 =
    (cachedExecute home hash (some (execAll home hash [] (h1 ++ h2))) op.content op.args op.outcome).2 := by
  have hl : ∀ key, hash (callText home x.content x.args) ≠ key → firstOutput home hash key (h1 ++ x :: h2) = firstOutput home hash key (h1 ++ h2) := by
    intro key hk
    induction h1 with
    | nil => simp [firstOutput, hk]
    | cons a r ih => simp only [List.cons_append, firstOutput, ih]
  rw [exec_cached, exec_cached, hl _ (fun he => hne (hh he))]

/-- C57: the same call is not run again, once it produced output. -/
theorem exec_reused (home : String) (hash : List Char → String) (h1 h2 : List ExecOp) (op : ExecOp) (o : Outcome) (d : Bytes) (ho : o.output = some d) :
    (cachedExecute home hash (some (execAll home hash [] (h1 ++ ⟨op.content, op.args, o⟩ :: h2))) op.content op.args op.outcome).2.1 = false := by
  rw [exec_cached]
  have : ∃ e, firstOutput home hash (hash (callText home op.content op.args)) (h1 ++ ⟨op.content, op.args, o⟩ :: h2) = some e := by
    induction h1 with
    | nil => exact ⟨d, by simp [firstOutput, ho]⟩
    | cons a r ih =>
      obtain ⟨e, he⟩ := ih
      simp only [List.cons_append, firstOutput, he]
      split
      · split
        · exact ⟨_, rfl⟩
        · exact ⟨_, rfl⟩
      · exact ⟨_, rfl⟩
  obtain ⟨e, he⟩ := this
  rw [he]

/-- C57: calls are confused if only the concatenation of the arguments is the same. -/
theorem exec_confused_defect (hash : List Char → String) (d : Bytes) (o : Outcome) :
    (cachedExecute "" hash (some (execAll "" hash [] [⟨none, ["echo", "ab", "c"], ⟨some d, false⟩⟩])) none ["echo", "a", "bc"] o).2 =
      (false, some (some d)) := by
  have h : callText "" none ["echo", "a", "bc"] = callText "" none ["echo", "ab", "c"] := by decide
  have := exec_cached "" hash [⟨none, ["echo", "ab", "c"], ⟨some d, false⟩⟩] ⟨none, ["echo", "a", "bc"], o⟩
  rw [this]
  simp [firstOutput, h]

/-- C57: the output of a failed command is cached: the error is reported only once. -/
theorem exec_failure_forgotten_defect (hash : List Char → String) (d : Bytes) (o o' : Outcome) (ho : o = ⟨some d, true⟩) :
    (cachedExecute "" hash (some []) none ["x"] o).2 = (true, none) ∧
    (cachedExecute "" hash (some (execAll "" hash [] [⟨none, ["x"], o⟩])) none ["x"] o').2 = (false, some (some d)) := by
  subst ho
  refine ⟨rfl, ?_⟩
  have := exec_cached "" hash [⟨none, ["x"], ⟨some d, true⟩⟩] ⟨none, ["x"], o'⟩
  rw [this]
  simp [firstOutput]

/-! C48 -/

theorem bak_ne (path : String) : bak path ≠ path := by
  intro h
  have := congrArg (fun s => s.toList.length) h
  simp only [bak, String.toList_append, List.length_append] at this
  have h5 : (".bak".toList).length = 4 := rfl
  omega

theorem mget_rename {fs : FileSys} {a b : String} {d : Bytes} (h : mget fs a = some d) (n : String) :
    mget (rename fs a b) n = if n = b then some d else if n = a then none else mget fs n := by
  simp only [rename, h, mget_mset, mget_mdel]

/-- C48: if there is a complete old state, then whenever the update is interrupted, the old state is complete in the state file or its
backup, or the new state is complete in the state file (and the old one in the backup). Other files are not touched. -/
theorem state_crash_safe (fs : FileSys) (path : String) (o data : Bytes) (ho : mget fs path = some o) (e : WriteEnd) (fs' : FileSys)
    (h : fs' ∈ updateState fs path data true e) :
    (mget fs' path = some o ∨ mget fs' (bak path) = some o) ∧ ∀ n, n ≠ path → n ≠ bak path → mget fs' n = mget fs n := by
  have hb : ∀ n, mget (backup fs path true) n = if n = bak path then some o else if n = path then none else mget fs n := by
    intro n
    simp only [backup, if_true]
    exact mget_rename ho n
  have hw : ∀ k, fs' ∈ writing (backup fs path true) path data k →
      (mget fs' path = some o ∨ mget fs' (bak path) = some o) ∧ ∀ n, n ≠ path → n ≠ bak path → mget fs' n = mget fs n := by
    intro k hk
    obtain ⟨i, _, rfl⟩ := List.mem_map.1 hk
    refine ⟨.inr ?_, fun n h1 h2 => ?_⟩
    · simp [mget_mset, bak_ne, hb]
    · simp [mget_mset, h1, h2, hb]
  have hu : ∀ fs1 : FileSys, (∀ n, n ≠ path → mget fs1 n = mget (backup fs path true) n) → fs' ∈ undo fs fs1 path →
      (mget fs' path = some o ∨ mget fs' (bak path) = some o) ∧ ∀ n, n ≠ path → n ≠ bak path → mget fs' n = mget fs n := by
    intro fs1 h1 hk
    have hd : mget (mdel fs1 path) (bak path) = some o := by
      rw [mget_mdel, if_neg (bak_ne path), h1 _ (bak_ne path), hb, if_pos rfl]
    simp only [undo, ho, Option.isSome_some, if_true, List.mem_cons, List.not_mem_nil, or_false] at hk
    rcases hk with rfl | rfl
    · refine ⟨.inr hd, fun n h2 h3 => ?_⟩
      rw [mget_mdel, if_neg h2, h1 n h2, hb, if_neg h3, if_neg h2]
    · refine ⟨.inl ?_, fun n h2 h3 => ?_⟩
      · rw [mget_rename hd, if_pos rfl]
      · rw [mget_rename hd, if_neg h2, if_neg h3, mget_mdel, if_neg h2, h1 n h2, hb, if_neg h3, if_neg h2]
  simp only [updateState, List.mem_cons] at h
  rcases h with rfl | rfl | h
  · exact ⟨.inl ho, fun _ _ _ => rfl⟩
  · refine ⟨.inr (by simp [hb]), fun n h1 h2 => by simp [hb, h1, h2]⟩
  · cases e with
    | ok => exact hw _ h
    | openFails => exact hu _ (fun _ _ => rfl) h
    | failsAfter k =>
      rcases List.mem_append.1 h with h | h
      · exact hw _ h
      · refine hu _ (fun n hn => ?_) h
        simp [mget_mset, hn]

theorem writing_last (fs : FileSys) (path : String) (data : Bytes) (k : Nat) : (writing fs path data k).getLast? = some (mset fs path (data.take k)) := by
  simp [writing, List.range_succ]

/-- C48: a complete update leaves the new state and the old one as backup. -/
theorem state_update_ok (fs : FileSys) (path : String) (data : Bytes) :
    ∃ fs', (updateState fs path data true .ok).getLast? = some fs' ∧ mget fs' path = some data ∧
      ∀ o, mget fs path = some o → mget fs' (bak path) = some o := by
  refine ⟨mset (backup fs path true) path data, ?_, mget_mset_self _ _ _, ?_⟩
  · simp only [updateState]
    have := writing_last (backup fs path true) path data data.length
    rw [List.take_length] at this
    rw [List.getLast?_cons, List.getLast?_cons, this]
    rfl
  · intro o ho
    simp only [mget_mset, bak_ne, if_false, backup, if_true]
    rw [mget_rename ho, if_pos rfl]

/-- C48: a failed write leaves the old state (or none, if there was none). -/
theorem state_update_failed (fs : FileSys) (path : String) (data : Bytes) (e : WriteEnd) (he : e ≠ .ok) :
    ∃ fs', (updateState fs path data true e).getLast? = some fs' ∧ mget fs' path = mget fs path := by
  have hu : ∀ fs1 : FileSys, (∀ n, n ≠ path → mget fs1 n = mget (backup fs path true) n) →
      ∃ fs', (undo fs fs1 path).getLast? = some fs' ∧ mget fs' path = mget fs path := by
    intro fs1 h1
    refine ⟨_, rfl, ?_⟩
    rcases ho : mget fs path with _ | o
    · simp [mget_mdel]
    · have hd : mget (mdel fs1 path) (bak path) = some o := by
        rw [mget_mdel, if_neg (bak_ne path), h1 _ (bak_ne path)]
        simp only [backup, if_true]
        rw [mget_rename ho, if_pos rfl]
      simp only [Option.isSome_some, if_true]
      show mget (rename (mdel fs1 path) (bak path) path) path = some o
      rw [mget_rename hd, if_pos rfl]
  cases e with
  | ok => exact absurd rfl he
  | openFails =>
    obtain ⟨fs', h1, h2⟩ := hu (backup fs path true) (fun _ _ => rfl)
    refine ⟨fs', ?_, h2⟩
    simp only [updateState, List.getLast?_cons, h1, Option.getD_some]
  | failsAfter k =>
    obtain ⟨fs', h1, h2⟩ := hu (mset (backup fs path true) path (data.take k)) (fun n hn => by simp [mget_mset, hn])
    refine ⟨fs', ?_, h2⟩
    simp only [updateState, List.getLast?_cons, List.getLast?_append, h1, Option.some_or, Option.getD_some]

/-- C48: an update after an interrupted one loses the old state: the incomplete file replaces the backup. -/
theorem state_lost_after_crash_defect (fs : FileSys) (path : String) (o d1 d2 : Bytes) (_ho : mget fs path = some o) (k : Nat) (hk : k ≤ d1.length) :
    ∃ fs1 ∈ updateState fs path d1 true .ok, mget fs1 path = some (d1.take k) ∧
    ∃ fs2, (updateState fs1 path d2 true .ok).getLast? = some fs2 ∧ mget fs2 path = some d2 ∧ mget fs2 (bak path) = some (d1.take k) := by
  refine ⟨mset (backup fs path true) path (d1.take k), ?_, mget_mset_self _ _ _, ?_⟩
  · simp only [updateState, List.mem_cons]
    exact .inr (.inr (List.mem_map.2 ⟨k, List.mem_range.2 (by omega), rfl⟩))
  · obtain ⟨fs2, h1, h2, h3⟩ := state_update_ok (mset (backup fs path true) path (d1.take k)) path d2
    exact ⟨fs2, h1, h2, h3 _ (mget_mset_self _ _ _)⟩

/-- C48: if the rename fails (the error is ignored by the code) a failing write destroys the old state. -/
theorem state_lost_rename_fails_defect (fs : FileSys) (path : String) (o data : Bytes) (hb : mget fs (bak path) = none) (ho : mget fs path = some o) :
    ∃ fs', (updateState fs path data false .openFails).getLast? = some fs' ∧ mget fs' path = none ∧ mget fs' (bak path) = none := by
  refine ⟨mdel fs path, ?_, ?_, ?_⟩
  · have : mget (mdel fs path) (bak path) = none := by rw [mget_mdel, if_neg (bak_ne path), hb]
    simp [updateState, undo, backup, ho, rename, this]
  · rw [mget_mdel, if_pos rfl]
  · rw [mget_mdel, if_neg (bak_ne path), hb]

/-- An instance: the write is interrupted after the first byte. -/
example : [("s.bak", [7]), ("s", [1])] ∈ updateState [("s", [7])] "s" [1, 2] true .ok ∧ mget [("s", ([7] : Bytes))] "s" = some [7] := by
  refine ⟨?_, rfl⟩
  have : bak "s" = "s.bak" := by decide
  simp [updateState, backup, rename, mget, mset, mdel, this, writing, List.range_succ]

end Spiff
