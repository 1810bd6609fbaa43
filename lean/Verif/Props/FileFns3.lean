import Verif.Props.FileFns2
/-
C76: archives, C78: commands and their output.
-/
namespace Spiff
open Spiff.Spec
variable {E : Type}

/-! ### archives -/

theorem emptyNamed (home : String) : FileNamed home "" [] (filePath home (String.ofList (removeTags "".toList))) := by
  refine ⟨[], ⟨by simp, .inr ⟨rfl, by simp⟩⟩, ?_⟩
  rw [← filePath_iff]; rfl

theorem entryPath_iff (key : Option String) (m : List (String × Node E)) (p : String) : entryPath key m = some p ↔
    HasField m "path" (.str p) ∨ (mget m "path" = none ∧ ∃ k tags name, key = some k ∧ TaggedName k.toList tags name ∧ p = String.ofList name) := by
  unfold entryPath HasField
  cases hm : mget m "path" with
  | some n =>
    simp only [Option.some.injEq, exists_eq_left', reduceCtorEq, false_and, or_false]
    cases n.val <;> simp
  | none =>
    simp only [reduceCtorEq, false_and, exists_false, true_and, false_or, Option.map_eq_some_iff]
    constructor
    · rintro ⟨k, rfl, rfl⟩
      obtain ⟨tags, ht⟩ := taggedName_removeTags k.toList
      exact ⟨k, tags, _, rfl, ht, rfl⟩
    · rintro ⟨k, tags, name, rfl, ht, rfl⟩
      exact ⟨k, rfl, by rw [(tags_iff _ _ _ ht).1]⟩

theorem entryOpts_iff (m : List (String × Node E)) (w : WriteOpts) : entryOpts m = some w ↔
    (∃ v, HasField m "mode" v ∧ OptionsOf 0o644 v w) ∨ (mget m "mode" = none ∧ w = ⟨false, false, 0o644⟩) := by
  unfold entryOpts HasField
  cases hm : mget m "mode" with
  | some n =>
    simp only [Option.some.injEq, exists_eq_left', reduceCtorEq, false_and, or_false]
    rw [options_iff]
  | none => simp [eq_comm]

theorem entryData_iff (L : IoLib E) (w : WriteOpts) (m : List (String × Node E)) (d : List Nat) : entryData L w m = some d ↔
    (∃ s, HasField m "base64" (.str s) ∧ b64Decode s.toList = some d) ∨
    (mget m "base64" = none ∧ ∃ v, HasField m "data" v ∧ v ≠ .nil ∧
        ((∃ t, DataText L w.multi v t ∧ BytesOf (w.binary = true) t d) ∨ ((¬ ∃ t, DataText L w.multi v t) ∧ w.binary = true ∧ d = []))) ∨
    (mget m "base64" = none ∧ mget m "data" = none ∧ d = []) := by
  have hW : ∀ v : Val E, WantsBinary w [] v ↔ w.binary = true := by intro v; simp [WantsBinary]
  have hg : ∀ v : Val E, ((getData L "" w v).2.2.2 = true ∧ (getData L "" w v).2.2.1 = d) ↔
      ((∃ t, DataText L w.multi v t ∧ BytesOf (w.binary = true) t d) ∨ ((¬ ∃ t, DataText L w.multi v t) ∧ w.binary = true ∧ d = [])) := by
    intro v
    have h := fun raw => (getData_written L "" [] _ w v raw d (emptyNamed L.home)).2.2
    have hWe : WantsBinary w [] v = (w.binary = true) := propext (hW v)
    simp only [hWe] at h
    constructor
    · rintro ⟨h1, h2⟩
      rcases (h _).1 ⟨h1, rfl, h2⟩ with h | ⟨ha, hb, _, hc⟩
      · exact .inl ⟨_, h⟩
      · exact .inr ⟨ha, hb, hc⟩
    · rintro (⟨t, ht⟩ | ⟨ha, hb, hc⟩)
      · obtain ⟨h1, _, h2⟩ := (h t).2 (.inl ht); exact ⟨h1, h2⟩
      · obtain ⟨h1, _, h2⟩ := (h "").2 (.inr ⟨ha, hb, rfl, hc⟩); exact ⟨h1, h2⟩
  unfold entryData HasField
  cases hb : mget m "base64" with
  | some n =>
    simp only [Option.some.injEq, exists_eq_left', reduceCtorEq, false_and, or_false]
    cases n.val <;> simp
  | none =>
    simp only [reduceCtorEq, false_and, exists_false, true_and, false_or]
    cases hd : mget m "data" with
    | some n =>
      simp only [Option.some.injEq, exists_eq_left', reduceCtorEq, false_and, or_false]
      have key : ∀ v : Val E, v ≠ .nil → ((if (getData L "" w v).2.2.2 then some (getData L "" w v).2.2.1 else none) = some d ↔
          ∃ x, v = x ∧ x ≠ .nil ∧ ((∃ t, DataText L w.multi x t ∧ BytesOf (w.binary = true) t d) ∨ ((¬ ∃ t, DataText L w.multi x t) ∧ w.binary = true ∧ d = []))) := by
        intro v hv
        constructor
        · intro h
          split at h
          · rename_i hk; exact ⟨v, rfl, hv, (hg v).1 ⟨hk, Option.some.inj h⟩⟩
          · cases h
        · rintro ⟨x, rfl, _, h⟩
          obtain ⟨h1, h2⟩ := (hg v).2 h
          rw [if_pos h1, h2]
      cases hv : n.val with
      | nil => simp
      | _ =>
        have hk := key n.val (by rw [hv]; exact fun h => by cases h)
        rw [hv] at hk
        refine hk.trans ⟨?_, ?_⟩
        · rintro ⟨x, rfl, hx, h⟩; exact ⟨by simp, h⟩
        · rintro ⟨hx, h⟩; exact ⟨_, rfl, hx, h⟩
    | none => simp

theorem execTag_iff (key : Option String) : (key.any (fun f => hasTag '*' f.toList) = true) ↔
    ∃ k tags name, key = some k ∧ TaggedName k.toList tags name ∧ '*' ∈ tags := by
  cases key with
  | none => simp
  | some k =>
    simp only [Option.any_some, Option.some.injEq]
    constructor
    · intro h
      obtain ⟨tags, ht⟩ := taggedName_removeTags k.toList
      exact ⟨k, tags, _, rfl, ht, ((tags_iff _ _ _ ht).2 '*' (.inl rfl)).1 h⟩
    · rintro ⟨_, tags, name, rfl, ht, h⟩
      exact ((tags_iff _ _ _ ht).2 '*' (.inl rfl)).2 h

/-- the file of an entry -/
theorem fileEntry_iff (L : IoLib E) (key : Option String) (m : List (String × Node E)) (e : FileEntry) :
    getFileEntry L key m = some e ↔ FieldsOf L key m e := by
  rcases e with ⟨p, mode, d⟩
  unfold getFileEntry
  constructor
  · intro h
    split at h
    · rename_i p' w hp hw
      split at h
      · cases h
      · rename_i d' hd
        simp only [Option.some.injEq, FileEntry.mk.injEq] at h
        obtain ⟨rfl, hmode, rfl⟩ := h
        refine ⟨(entryPath_iff key m _).1 hp, w, (entryOpts_iff m w).1 hw, ?_, (entryData_iff L w m _).1 hd⟩
        by_cases ht : key.any (fun f => hasTag '*' f.toList) = true
        · rw [if_pos ht] at hmode; exact .inl ⟨(execTag_iff key).1 ht, hmode.symm⟩
        · rw [if_neg ht] at hmode; exact .inr ⟨fun h => ht ((execTag_iff key).2 h), hmode.symm⟩
    · cases h
  · rintro ⟨hp, w, hw, hm, hd⟩
    simp only at hp hm hd
    rw [(entryPath_iff key m p).2 hp, (entryOpts_iff m w).2 hw]
    simp only
    rw [(entryData_iff L w m d).2 hd]
    simp only [Option.some.injEq, FileEntry.mk.injEq, true_and, and_true]
    rcases hm with ⟨ht, h⟩ | ⟨ht, h⟩
    · rw [if_pos ((execTag_iff key).2 ht), h]
    · rw [if_neg (fun h => ht ((execTag_iff key).1 h)), h]

/-- the file of an entry of a map -/
theorem item_iff (L : IoLib E) (k : String) (v : Val E) (i : Option FileEntry) : arMapEntry L k v = some i ↔ ItemOf L k v i := by
  have key : ∀ v : Val E, v ≠ .nil → (∀ m, v ≠ .map m) →
      ((if (getData L k {} v).2.2.2 then some (some (⟨(getData L k {} v).1, 420, (getData L k {} v).2.2.1⟩ : FileEntry)) else none) = some i ↔
        ItemOf L k v i) := by
    intro v hn hm
    have hW : ∀ tags, WantsBinary {} tags v = ((∃ s, v = .str s) ∧ '#' ∈ tags) := by intro tags; simp [WantsBinary]
    constructor
    · intro h
      split at h
      · rename_i hk
        have h := (Option.some.inj h).symm
        subst h
        obtain ⟨tags, ht⟩ := (fileNamed_iff L.home k _).1 rfl
        have hg := getData_written L k tags _ {} v (getData L k {} v).2.1 (getData L k {} v).2.2.1 ht
        rcases hg.2.2.1 ⟨hk, rfl, rfl⟩ with ⟨h1, h2⟩ | ⟨_, h, _⟩
        · rw [hW] at h2
          refine .content v tags _ _ _ hn hm ?_ h1 h2
          rw [hg.1]; exact ht
        · cases h
      · cases h
    · intro h
      cases h with
      | skipped => exact absurd rfl hn
      | fields m => exact absurd rfl (hm m)
      | content _ tags f t d _ _ hf ht hd =>
        have hg := getData_written L k tags f {} v t d hf
        obtain ⟨h1, _, h2⟩ := hg.2.2.2 (.inl ⟨ht, by rw [hW]; exact hd⟩)
        rw [if_pos h1, hg.1, h2]
  cases v with
  | nil =>
    simp only [arMapEntry, Option.some.injEq]
    constructor
    · rintro rfl; exact .skipped
    · intro h
      cases h with
      | skipped => rfl
      | content _ _ _ _ _ hn => exact absurd rfl hn
  | map m =>
    simp only [arMapEntry, Option.map_eq_some_iff]
    constructor
    · rintro ⟨e, h, rfl⟩; exact .fields m e ((fileEntry_iff L _ m e).1 h)
    · intro h
      cases h with
      | fields _ e h => exact ⟨e, (fileEntry_iff L _ m e).2 h, rfl⟩
      | content _ _ _ _ _ _ hm => exact absurd rfl (hm m)
  | _ => simp only [arMapEntry]; exact key _ (by simp) (by simp)

theorem mapItems_iff (L : IoLib E) (m : List (String × Node E)) (ks : List String) (hk : ∀ k ∈ ks, ∃ n, mget m k = some n) (es : List FileEntry) :
    arMapEntries L m ks = some es ↔
      ∃ items, List.Forall₂ (fun k i => ∃ v, HasField m k v ∧ ItemOf L k v i) ks items ∧ es = items.filterMap id := by
  induction ks generalizing es with
  | nil =>
    simp only [arMapEntries, Option.some.injEq]
    constructor
    · rintro rfl; exact ⟨[], .nil, rfl⟩
    · rintro ⟨items, h, rfl⟩; cases h; rfl
  | cons k ks ih =>
    obtain ⟨n, hn⟩ := hk k (by simp)
    have ih := ih (fun k h => hk k (by simp [h]))
    have hf : ∀ v, HasField m k v ↔ v = n.val := by
      intro v; unfold HasField; rw [hn]; simp [eq_comm]
    simp only [arMapEntries, hn]
    constructor
    · intro h
      cases hi : arMapEntry L k n.val with
      | none => rw [hi] at h; cases h
      | some i =>
        have hi' := (item_iff L k n.val i).1 hi
        rw [hi] at h
        cases i with
        | none =>
          obtain ⟨items, h1, rfl⟩ := (ih es).1 h
          exact ⟨none :: items, .cons ⟨_, (hf _).2 rfl, hi'⟩ h1, by simp⟩
        | some e =>
          simp only [Option.map_eq_some_iff] at h
          obtain ⟨es', h, rfl⟩ := h
          obtain ⟨items, h1, rfl⟩ := (ih es').1 h
          exact ⟨some e :: items, .cons ⟨_, (hf _).2 rfl, hi'⟩ h1, by simp⟩
    · rintro ⟨items, h, rfl⟩
      cases h with
      | cons h1 h2 =>
        rename_i i items
        obtain ⟨v, hv, h1⟩ := h1
        rw [hf] at hv; subst hv
        rw [(item_iff L k n.val i).2 h1]
        have := (ih _).2 ⟨items, h2, rfl⟩
        cases i with
        | none => simp only [this]; simp
        | some e => simp only [this]; simp

theorem listItems_iff (L : IoLib E) (l : List (Node E)) (es : List FileEntry) :
    arListEntries L l = some es ↔ List.Forall₂ (fun n e => ∃ m, n.val = .map m ∧ FieldsOf L none m e) l es := by
  induction l generalizing es with
  | nil =>
    simp only [arListEntries, Option.some.injEq]
    constructor
    · rintro rfl; exact .nil
    · intro h; cases h; rfl
  | cons n l ih =>
    simp only [arListEntries]
    constructor
    · intro h
      split at h
      · rename_i m hm
        split at h
        · cases h
        · rename_i e he
          simp only [Option.map_eq_some_iff] at h
          obtain ⟨es', h, rfl⟩ := h
          exact .cons ⟨m, hm, (fileEntry_iff L _ m e).1 he⟩ ((ih es').1 h)
      · cases h
    · intro h
      cases h with
      | cons h1 h2 =>
        rename_i e es
        obtain ⟨m, hm, h1⟩ := h1
        rw [hm]
        simp only
        rw [(fileEntry_iff L _ m e).2 h1]
        simp only [(ih es).2 h2, Option.map_some]

/-- **C76**: the files of an archive are exactly those described by the entries of the list, or by the entries of the map in the order of
the keys. -/
theorem archive_files (L : IoLib E) (v : Val E) (hv : ∀ m, v = .map m → MapOK m) (es : List FileEntry) :
    archiveEntries L v = some es ↔ FilesOf L v es := by
  cases v with
  | nil =>
    simp only [archiveEntries, Option.some.injEq]
    constructor
    · rintro rfl; exact .nothing
    · intro h; cases h; rfl
  | map m =>
    simp only [archiveEntries]
    have hks : ∀ k ∈ sortedKeys m, ∃ n, mget m k = some n := by
      intro k hk
      have : k ∈ mkeys m := (sortStr_perm _).subset hk
      cases h : mget m k with
      | some n => exact ⟨n, rfl⟩
      | none => exact absurd this (mget_none_iff.1 h)
    constructor
    · intro h
      obtain ⟨items, h1, rfl⟩ := (mapItems_iff L m _ hks es).1 h
      exact .map m _ items (sortStr_perm _) (sortStr_sorted _) h1
    · intro h
      cases h with
      | map _ ks items hp hs h =>
        have : ks = sortedKeys m := sorted_unique (hp.trans (sortStr_perm _).symm) hs (sortStr_sorted _)
        subst this
        exact (mapItems_iff L m _ hks _).2 ⟨items, h, rfl⟩
  | list l =>
    simp only [archiveEntries]
    rw [listItems_iff]
    constructor
    · intro h; exact .list l es h
    · intro h; cases h; assumption
  | _ => simp only [archiveEntries]; constructor <;> (intro h; cases h)

/-- **C76**: the result of `archive`: the base64 text of the archive with these files, wrapped to lines of 60 characters; decoding gives the archive. -/
theorem archive_result (L : IoLib E) (T : TarLib) (v : Val E) (hv : ∀ m, v = .map m → MapOK m) (mode : Option String) (r : Val E) :
    funcArchive L T (v :: (mode.map Val.str).toList) = .ok r ↔
      ∃ es d, FilesOf L v es ∧ T.tar es = some d ∧
        ((mode.getD "tar" = "tar" ∧ r = .str (String.ofList (base64Encode d 60))) ∨
         (mode.getD "tar" = "targz" ∧ r = .str (String.ofList (base64Encode (T.gzip d) 60)))) := by
  have hA : ∀ md : String, archiveVal L T v md = .ok r ↔ ∃ es d, FilesOf L v es ∧ T.tar es = some d ∧
        ((md = "tar" ∧ r = .str (String.ofList (base64Encode d 60))) ∨ (md = "targz" ∧ r = .str (String.ofList (base64Encode (T.gzip d) 60)))) := by
    intro md
    unfold archiveVal
    cases hes : archiveEntries L v with
    | none =>
      simp only [reduceCtorEq, false_iff]
      rintro ⟨es, d, h, _⟩
      rw [(archive_files L v hv es).2 h] at hes; cases hes
    | some es =>
      have hes' := (archive_files L v hv es).1 hes
      have hu : ∀ es', FilesOf L v es' → es' = es := by
        intro es' h
        have := (archive_files L v hv es').2 h
        rw [hes] at this; exact (Option.some.inj this).symm
      simp only [packEntries]
      constructor
      · intro h
        split at h
        · rename_i s hs
          have h := Out.ok.inj h
          subst h
          split at hs
          · rename_i hmd
            simp only [Option.map_eq_some_iff] at hs
            obtain ⟨d, hd, rfl⟩ := hs
            exact ⟨es, d, hes', hd, .inr ⟨hmd, rfl⟩⟩
          · split at hs
            · rename_i hmd
              simp only [Option.map_eq_some_iff] at hs
              obtain ⟨d, hd, rfl⟩ := hs
              exact ⟨es, d, hes', hd, .inl ⟨hmd, rfl⟩⟩
            · cases hs
        · cases h
      · rintro ⟨es', d, h1, h2, h3⟩
        have := hu es' h1
        subst this
        rcases h3 with ⟨rfl, rfl⟩ | ⟨rfl, rfl⟩
        · simp [h2]
        · simp [h2]
  cases mode with
  | none => simpa [funcArchive] using hA "tar"
  | some md => simpa [funcArchive] using hA md

/-- **C76** (defect): the tag `*` makes a file executable only if its entry is a map; with the content given directly it is ignored (but removed). -/
theorem archive_exec_defect (L : IoLib E) (k s : String) (tags name : List Char) (ht : TaggedName k.toList tags name) (h1 : '*' ∈ tags) (h2 : '#' ∉ tags) :
    (∃ f, arMapEntry L k (.str s) = some (some ⟨f, 0o644, utf8Bytes s⟩)) ∧
    arMapEntry L k (.map [("data", Node.new (.str s) "")]) = some (some ⟨String.ofList name, 0o744, utf8Bytes s⟩) := by
  constructor
  · refine ⟨filePath L.home (String.ofList name), (item_iff L k _ _).2 (.content _ tags _ s _ (by simp) (by simp) ⟨name, ht, ?_⟩ (.simple _ _ (.str s)) (.inr ⟨?_, rfl⟩))⟩
    · exact (filePath_iff _ _ _).1 rfl
    · rintro ⟨_, h⟩; exact h2 h
  · refine (item_iff L k _ _).2 (.fields _ _ ⟨.inr ⟨rfl, k, tags, name, rfl, ht, rfl⟩, ⟨false, false, 0o644⟩, .inr ⟨rfl, rfl⟩, .inl ⟨⟨k, tags, name, rfl, ht, h1⟩, rfl⟩,
      .inr (.inl ⟨rfl, .str s, ⟨_, rfl, rfl⟩, by simp, .inl ⟨s, .simple _ _ (.str s), .inr ⟨by simp, rfl⟩⟩⟩)⟩)

example : TaggedName "*run.sh".toList ['*'] "run.sh".toList := ⟨by simp, .inr ⟨by decide, by decide⟩⟩

/-- a path with a home directory in an archive: `~/` is expanded for direct contents, not for maps -/
theorem archive_home_differs (L : IoLib E) (hh : L.home ≠ "") (s : String) :
    arMapEntry L "~/x" (.str s) = some (some ⟨L.home ++ "/x", 0o644, utf8Bytes s⟩) ∧
    arMapEntry L "~/x" (.map [("data", Node.new (.str s) "")]) = some (some ⟨"~/x", 0o644, utf8Bytes s⟩) := by
  have ht : TaggedName "~/x".toList [] "~/x".toList := ⟨by simp, .inr ⟨rfl, by decide⟩⟩
  constructor
  · refine (item_iff L _ _ _).2 (.content _ [] _ s _ (by simp) (by simp) ⟨_, ht, .inl ⟨"x", rfl, hh, ?_⟩⟩ (.simple _ _ (.str s)) (.inr ⟨by simp, rfl⟩))
    rw [String.append_assoc]; rfl
  · refine (item_iff L _ _ _).2 (.fields _ _ ⟨.inr ⟨rfl, _, [], _, rfl, ht, rfl⟩, ⟨false, false, 0o644⟩, .inr ⟨rfl, rfl⟩, .inr ⟨?_, rfl⟩,
      .inr (.inl ⟨rfl, .str s, ⟨_, rfl, rfl⟩, by simp, .inl ⟨s, .simple _ _ (.str s), .inr ⟨by simp, rfl⟩⟩⟩)⟩)
    rintro ⟨k, tags, name, h, ht', hm⟩
    cases h
    rw [← (taggedName_unique _ _ _ _ _ ht ht').1] at hm
    cases hm

/-! ### commands -/

theorem texts_iff (L : IoLib E) (args : List (Val E)) (ts : List String) :
    commandArgs L false args = some ts ↔ List.Forall₂ (fun v t => DataText L false v t) args ts := by
  induction args generalizing ts with
  | nil =>
    simp only [commandArgs, Option.some.injEq]
    constructor
    · rintro rfl; exact .nil
    · intro h; cases h; rfl
  | cons v r ih =>
    simp only [commandArgs, Bool.not_false]
    constructor
    · intro h
      split at h
      · rename_i hk
        simp only [Option.map_eq_some_iff] at h
        obtain ⟨ts', h, rfl⟩ := h
        exact .cons ((getArg_iff L false v _).1 ⟨hk, rfl⟩) ((ih ts').1 h)
      · cases h
    · intro h
      cases h with
      | cons h1 h2 =>
        rename_i t ts
        obtain ⟨a, b⟩ := (getArg_iff L false v t).2 h1
        rw [if_pos a, b, (ih ts).2 h2]
        rfl

theorem line_iff (L : IoLib E) (args : List (Val E)) (hne : args ≠ []) (line : List String) : commandArgs L true args = some line ↔ LineOf L args line := by
  cases args with
  | nil => exact absurd rfl hne
  | cons v r =>
    simp only [commandArgs, Bool.not_true]
    constructor
    · intro h
      split at h
      · rename_i hk
        simp only [Option.map_eq_some_iff] at h
        obtain ⟨ts', h, rfl⟩ := h
        exact .mk v r _ ts' ((getArg_simple L false v _).1 ⟨hk, rfl⟩) ((texts_iff L r ts').1 h)
      · cases h
    · intro h
      cases h with
      | mk _ _ t ts hc ha =>
        obtain ⟨a, b⟩ := (getArg_simple L false v t).2 hc
        rw [if_pos a, b, (texts_iff L r ts).2 ha]
        rfl

/-- the command line -/
theorem execArgs_iff (L : IoLib E) (args : List (Val E)) (line : List String) : execArgs L args = some line ↔ CommandLine L args line := by
  have hnl : ∀ (l : List (Node E)) r, ¬ LineOf L (.list l :: r) line := by
    intro l r h
    cases h with
    | mk _ _ t ts hc => cases hc
  unfold execArgs CommandLine
  split
  · simp only [reduceCtorEq, false_iff]
    rintro (h | ⟨l, h, _⟩) <;> cases h
  · simp only [reduceCtorEq, false_iff]
    rintro (h | ⟨l, h, hl⟩)
    · exact hnl _ _ h
    · cases h; cases hl
  · rename_i l hl
    rw [line_iff L _ (by simpa using hl)]
    constructor
    · intro h; exact .inr ⟨l, rfl, h⟩
    · rintro (h | ⟨l', h, hh⟩)
      · exact absurd h (hnl _ _)
      · cases h; exact hh
  · rename_i l r h1 h2
    simp only [reduceCtorEq, false_iff]
    rintro (h | ⟨l', h, hh⟩)
    · exact hnl _ _ h
    · cases h; exact h2 rfl
  · rename_i h1 h2 h3 h4
    rw [line_iff L _ h1]
    constructor
    · exact .inl
    · rintro (h | ⟨l', h, hh⟩)
      · exact h
      · exact absurd h (h4 _ _)

theorem dropNewlines_iff (s t : List Char) : dropNewlines s = t ↔ WithoutNewlines s t := by
  have key : WithoutNewlines s (dropNewlines s) := by
    unfold dropNewlines
    obtain ⟨a, h1, h2⟩ := dropWhile_split (fun c => decide (c = '\n')) s.reverse
    refine ⟨⟨a.length, ?_⟩, ?_⟩
    · have ha : a = List.replicate a.length '\n' := List.eq_replicate_iff.2 ⟨rfl, fun c hc => by simpa using h2 c hc⟩
      have := congrArg List.reverse h1
      rw [List.reverse_reverse, List.reverse_append] at this
      rw [ha, List.reverse_replicate] at this
      exact this
    · rw [List.getLast?_reverse]
      intro h
      have := List.head?_dropWhile_not (fun c => decide (c = '\n')) s.reverse
      rw [h] at this
      simp at this
  constructor
  · rintro rfl; exact key
  · intro h
    obtain ⟨⟨k, hk⟩, hl⟩ := h
    unfold dropNewlines
    rw [hk, List.reverse_append, List.reverse_replicate]
    rw [dropWhile_blank (fun c => decide (c = '\n')) _ t.reverse (fun c hc => by simpa using (List.mem_replicate.1 hc).2), List.reverse_reverse]
    intro c hc
    rw [List.head?_reverse] at hc
    simp only [decide_eq_false_iff_not]
    rintro rfl
    exact hl hc

theorem signedDecimal_iff (s : String) (i : Int) : parseInt s = some i ↔ SignedDecimal s.toList i := parseInt_iff s i

/-- the result for an output -/
theorem output_iff (parse : String → Option (Node E)) (out : String) (v : Val E) : convertOutput parse out = v ↔ OutputOf parse out v := by
  have hmap : ∀ n : Node E, isMapNode n = true ↔ ∃ m, n.val = .map m := by
    intro n; unfold isMapNode; cases n.val <;> simp
  have plain : (∀ n, parse out = some n → (∀ m, n.val ≠ .map m) ∧ ¬ ∃ r, out = "---\n" ++ r) → (plainOutput out = v ↔ OutputOf parse out v) := by
    intro hno
    have hw := (dropNewlines_iff out.toList _).1 rfl
    have hdoc : ∀ n : Node E, parse out = some n → ((∃ m, n.val = .map m) ∨ ∃ r, out = "---\n" ++ r) → False := by
      intro n hn h
      rcases h with ⟨m, h⟩ | h
      · exact (hno n hn).1 m h
      · exact (hno n hn).2 h
    unfold plainOutput
    cases hp : parseInt (String.ofList (dropNewlines out.toList)) with
    | some i =>
      have hi := (signedDecimal_iff _ _).1 hp
      rw [String.toList_ofList] at hi
      simp only
      constructor
      · rintro rfl; exact .int _ i hno hw hi
      · intro h
        generalize hv : v = v' at h
        cases h with
        | doc n h hm => exact (hdoc n h hm).elim
        | int t j _ ht hj =>
          rw [← dropNewlines_iff] at ht; subst ht
          have := (signedDecimal_iff (String.ofList (dropNewlines out.toList)) j).2 (by rw [String.toList_ofList]; exact hj)
          rw [hp] at this; rw [Option.some.inj this]
        | text t _ ht hj =>
          rw [← dropNewlines_iff] at ht; subst ht
          exact absurd hi (hj i)
    | none =>
      have hi : ∀ i, ¬ SignedDecimal (dropNewlines out.toList) i := by
        intro i h
        have := (signedDecimal_iff (String.ofList (dropNewlines out.toList)) i).2 (by rw [String.toList_ofList]; exact h)
        rw [hp] at this; cases this
      simp only
      constructor
      · rintro rfl; exact .text _ hno hw hi
      · intro h
        generalize hv : v = v' at h
        cases h with
        | doc n h hm => exact (hdoc n h hm).elim
        | int t j _ ht hj => rw [← dropNewlines_iff] at ht; subst ht; exact absurd hj (hi j)
        | text t _ ht hj => rw [← dropNewlines_iff] at ht; subst ht; rfl
  unfold convertOutput
  cases hp : parse out with
  | none => simp only; exact plain (by simp [hp])
  | some n =>
    simp only
    by_cases hc : (∃ m, n.val = .map m) ∨ ∃ r, out = "---\n" ++ r
    · have hb : (isMapNode n || isMapNode n || hasPrefix out "---\n") = true := by
        rw [Bool.or_self, Bool.or_eq_true, hmap, hasPrefix_append]; exact hc
      rw [if_pos hb]
      constructor
      · rintro rfl; exact .doc n hp hc
      · intro h
        generalize hv : v = v' at h
        cases h with
        | doc n' h hm => rw [hp] at h; cases h; rfl
        | int t j h ht hj =>
          rcases hc with ⟨m, hc⟩ | hc
          · exact absurd hc ((h n hp).1 m)
          · exact absurd hc (h n hp).2
        | text t h ht hj =>
          rcases hc with ⟨m, hc⟩ | hc
          · exact absurd hc ((h n hp).1 m)
          · exact absurd hc (h n hp).2
    · have hb : ¬ ((isMapNode n || isMapNode n || hasPrefix out "---\n") = true) := by
        rw [Bool.or_self, Bool.or_eq_true, hmap, hasPrefix_append]; exact hc
      rw [if_neg hb]
      apply plain
      intro n' hn'
      rw [hp] at hn'; cases hn'
      exact ⟨fun m h => hc (.inl ⟨m, h⟩), fun h => hc (.inr h)⟩

/-- **C78**: `exec` calls exactly the described command line, and yields the value described by its output. -/
theorem exec_iff (L : IoLib E) (allowed : Bool) (parse : String → Option (Node E)) (run : List String → Option String) (args : List (Val E)) (v : Val E) :
    funcExec L allowed parse run args = .ok v ↔
      allowed = true ∧ ∃ line out, CommandLine L args line ∧ run line = some out ∧ OutputOf parse out v := by
  unfold funcExec
  by_cases he : args.isEmpty = true
  · rw [if_pos he]
    rw [List.isEmpty_iff] at he
    subst he
    simp only [reduceCtorEq, false_iff]
    rintro ⟨_, line, out, h, _⟩
    rcases h with h | ⟨l, h, _⟩ <;> cases h
  · rw [if_neg he]
    cases allowed with
    | false => simp
    | true =>
      simp only [Bool.not_true, Bool.false_eq_true, if_false, true_and]
      constructor
      · intro h
        split at h
        · cases h
        · rename_i cmd hc
          split at h
          · cases h
          · rename_i o ho
            exact ⟨cmd, o, (execArgs_iff L args cmd).1 hc, ho, (output_iff parse o v).1 (Out.ok.inj h)⟩
      · rintro ⟨cmd, o, hc, ho, hv⟩
        rw [(execArgs_iff L args cmd).2 hc]
        simp only [ho]
        rw [(output_iff parse o v).2 hv]

/-- **C78**: `pipe` gives the text of its first argument to the described command. -/
theorem pipe_iff (L : IoLib E) (allowed : Bool) (parse : String → Option (Node E)) (run : String → List String → Option String) (args : List (Val E)) (v : Val E) :
    funcPipe L allowed parse run args = .ok v ↔
      allowed = true ∧ 3 ≤ args.length ∧ ∃ i cmd t line out, args = i :: cmd ∧ DataText L false i t ∧ LineOf L cmd line ∧ run t line = some out ∧ OutputOf parse out v := by
  unfold funcPipe
  by_cases hlen : args.length ≤ 2
  · rw [if_pos hlen]
    simp only [reduceCtorEq, false_iff]
    rintro ⟨_, h, _⟩; omega
  · rw [if_neg hlen]
    have h3 : 3 ≤ args.length := by omega
    cases allowed with
    | false => simp
    | true =>
      simp only [Bool.not_true, Bool.false_eq_true, if_false, true_and, h3]
      match args, h3 with
      | i :: c :: a :: r, _ =>
        have hpipe : ∀ t line, pipeArgs L (i :: c :: a :: r) = some (t, line) ↔ DataText L false i t ∧ LineOf L (c :: a :: r) line := by
          intro t line
          simp only [pipeArgs]
          rw [← getArg_iff]
          cases hok : (getArg L false true i).ok with
          | false => simp
          | true =>
            simp only [Bool.not_true, Bool.false_eq_true, if_false, true_and]
            have hcomm : (Option.map (fun args => ((getArg L false true i).text, args)) (commandArgs L true (c :: a :: r)) = some (t, line) ↔
                (getArg L false true i).text = t ∧ LineOf L (c :: a :: r) line) := by
              rw [← line_iff L _ (by simp)]
              simp only [Option.map_eq_some_iff, Prod.mk.injEq]
              constructor
              · rintro ⟨x, h, rfl, rfl⟩; exact ⟨rfl, h⟩
              · rintro ⟨rfl, h⟩; exact ⟨_, h, rfl, rfl⟩
            cases c with
            | list l =>
              simp only [reduceCtorEq, false_iff]
              rintro ⟨_, h⟩
              cases h with
              | mk _ _ _ _ hc => cases hc
            | _ => exact hcomm
        constructor
        · intro h
          split at h
          · cases h
          · rename_i t line hc
            obtain ⟨h1, h2⟩ := (hpipe _ _).1 hc
            split at h
            · cases h
            · rename_i o ho
              exact ⟨i, _, t, line, o, rfl, h1, h2, ho, (output_iff parse o v).1 (Out.ok.inj h)⟩
        · rintro ⟨i', cmd, t, line, o, h, h1, h2, ho, hv⟩
          cases h
          rw [(hpipe _ _).2 ⟨h1, h2⟩]
          simp only [ho]
          rw [(output_iff parse o v).2 hv]

/-- **C78** (defect): a YAML list as output is given as text (unless it begins with the document marker), a map is parsed. -/
theorem exec_list_defect (parse : String → Option (Node E)) (out : String) (n : Node E) (l : List (Node E)) (hp : parse out = some n) (hl : n.val = .list l)
    (hm : ¬ ∃ r, out = "---\n" ++ r) : ∃ w, (convertOutput parse out = .str w ∨ ∃ i, convertOutput parse out = .int i) ∧ convertOutput parse out ≠ n.val := by
  have h := (output_iff parse out _).1 rfl
  generalize convertOutput parse out = v at h
  cases h with
  | doc n' h hm' =>
    rw [hp] at h; cases h
    rcases hm' with ⟨m, h⟩ | h
    · rw [hl] at h; cases h
    · exact absurd h hm
  | int t i _ _ _ => exact ⟨"", .inr ⟨i, rfl⟩, by rw [hl]; simp⟩
  | text t _ _ _ => exact ⟨_, .inl rfl, by rw [hl]; simp⟩

/-- **C78** (defect): `pipe` rejects a command without arguments, although its message requires only two arguments -/
theorem pipe_two_defect (L : IoLib E) (parse : String → Option (Node E)) (run : String → List String → Option String) (i c : Val E) :
    funcPipe L true parse run [i, c] = .err := rfl

/-- command lines exist -/
example (L : IoLib Unit) : CommandLine L [.str "echo", .int 5, .bool true] ["echo", "5", "true"] :=
  .inl (.mk _ _ _ _ (.str _) (.cons (.simple _ _ (.int 5)) (.cons (.simple _ _ .true) .nil)))
example : OutputOf (E := Unit) (fun _ => none) "-12\n\n" (.int (-12)) := (output_iff _ _ _).1 (by
  have h : parseInt (String.ofList (dropNewlines "-12\n\n".toList)) = some (-12) := by decide +kernel
  simp only [convertOutput, plainOutput, h])

end Spiff
