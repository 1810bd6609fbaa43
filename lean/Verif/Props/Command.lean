import Verif.Spec.Command
import Verif.Props.Find
import Verif.Props.Tags
import Verif.Props.Files
import Verif.Props.Sanitize
import Verif.Props.Context
import Verif.Props.Values
/-
The commands of the command line tool (C67): reading of the arguments, all or nothing output, documents of the output, files.
-/
namespace Spiff
open Spiff.Spec
variable {E S : Type}

/-! ### steps -/

theorem ebind_ok {α β : Type} {x : Step? α} {f : α → Step? β} {b : β} : x.bind f = .ok b ↔ ∃ a, x = .ok a ∧ f a = .ok b := by
  cases x <;> simp [Except.bind]

theorem emap_ok {α β : Type} {x : Step? α} {f : α → β} {b : β} : x.map f = .ok b ↔ ∃ a, x = .ok a ∧ f a = b := by
  cases x <;> simp [Except.map]

theorem orFatal_ok {α : Type} {o : Option α} {a : α} : orFatal o = .ok a ↔ o = some a := by
  cases o <;> simp [orFatal]

/-! ### paths of options -/

/-- the components, when the loop stops -/
def pathEnd (st : List Txt × Txt) : List Txt := if st.2 ≠ [] then st.1 ++ [st.2] else st.1

theorem pathComponents_end (p : Txt) (l : Bool) : pathComponents p l = pathEnd (p.foldl (pathStep l) ([], [])) := rfl

theorem path_word (a : List Txt) : ∀ (c cur : Txt), (∀ x ∈ c, x ≠ '.' ∧ x ≠ '[') → c.foldl (pathStep false) (a, cur) = (a, cur ++ c)
  | [], cur, _ => by simp
  | x :: c, cur, h => by
    have hx := h x (by simp)
    rw [List.foldl_cons]
    have : pathStep false (a, cur) x = (a, cur ++ [x]) := by simp [pathStep, hx.1, hx.2]
    rw [this, path_word a c _ (fun y hy => h y (by simp [hy]))]
    simp

theorem path_cut (a : List Txt) (cur r : Txt) (hc : cur ≠ []) (hr : r = [] ∨ r.head? = some '.' ∨ r.head? = some '[') :
    pathEnd (r.foldl (pathStep false) (a, cur)) = pathEnd (r.foldl (pathStep false) (a ++ [cur], [])) := by
  rcases r with _ | ⟨x, r⟩
  · simp [pathEnd, hc]
  · rcases hr with h | h | h
    · cases h
    · simp only [List.head?_cons, Option.some.injEq] at h; subst h
      simp [pathStep, hc]
    · simp only [List.head?_cons, Option.some.injEq] at h; subst h
      simp [pathStep, hc]

theorem components_fold {p : Txt} {cs : List String} (h : Components p cs) :
    ∀ a, pathEnd (p.foldl (pathStep false) (a, [])) = a ++ cs.map String.toList := by
  induction h with
  | done => intro a; simp [pathEnd]
  | dot r cs h ih => intro a; rw [List.foldl_cons]; simpa [pathStep] using ih a
  | comp c c0 r cs h0 hc hr h ih =>
    intro a
    have : pathStep false (a, []) c0 = (a, [c0]) := by
      unfold pathStep; rw [if_neg h0]; split
      · simp_all
      · simp
    rw [List.cons_append, List.foldl_cons, List.foldl_append, this, path_word a c [c0] hc, path_cut a _ r (by simp) hr, ih]
    simp [String.toList_ofList]

theorem components_exist (n : Nat) : ∀ p : Txt, p.length ≤ n → ∃ cs, Components p cs := by
  induction n with
  | zero => intro p hp; exact ⟨[], by simpa using (List.eq_nil_of_length_eq_zero (Nat.le_zero.mp hp)) ▸ Components.done⟩
  | succ n ih =>
    intro p hp
    rcases p with _ | ⟨x, r⟩
    · exact ⟨[], .done⟩
    · by_cases hx : x = '.'
      · obtain ⟨cs, h⟩ := ih r (by simpa using hp)
        exact ⟨cs, hx ▸ .dot r cs h⟩
      · let f : Char → Bool := fun y => decide (y ≠ '.' ∧ y ≠ '[')
        obtain ⟨cs, h⟩ := ih (r.dropWhile f) (by
          have := (List.dropWhile_sublist (p := f) (l := r)).length_le
          simp only [List.length_cons] at hp; omega)
        have hh := Components.comp (r.takeWhile f) x (r.dropWhile f) cs hx ?_ ?_ h
        · rw [List.cons_append, List.takeWhile_append_dropWhile] at hh
          exact ⟨_, hh⟩
        · intro y hy
          have := List.all_takeWhile (p := f) (l := r)
          rw [List.all_eq_true] at this
          simpa [f] using this y hy
        · rcases hd : r.dropWhile f with _ | ⟨y, r'⟩
          · simp
          · right
            have := List.head?_dropWhile_not f r
            rw [hd] at this
            simp only [List.head?_cons] at this ⊢
            by_cases h1 : y = '.'
            · simp [h1]
            · right; simp [f, h1] at this; simp [this]

theorem components_iff (p : String) (cs : List String) : Components p.toList cs ↔ optionPath p = cs := by
  have key : ∀ cs, Components p.toList cs → optionPath p = cs := by
    intro cs h
    have := components_fold h []
    unfold optionPath
    rw [pathComponents_end, this]
    simp [Function.comp_def, String.ofList_toList]
  constructor
  · exact key cs
  · intro h
    obtain ⟨cs', h'⟩ := components_exist _ p.toList le_rfl
    rw [← key cs' h'] at h'
    exact h ▸ h'

example : Components "a.b[1].c".toList ["a", "b", "[1]", "c"] := (components_iff _ _).2 (by decide +kernel)

theorem lookPath_ok (f : Features) (n : Node E) (p : String) (x : Node E) :
    lookPath f n p = .ok x ↔ AtPath (f.enabled "control") n p x := by
  unfold lookPath AtPath
  constructor
  · intro h
    refine ⟨optionPath p, (components_iff _ _).2 rfl, (find_iff_reaches _ _ _ _ _).1 ?_⟩
    split at h <;> simp_all
  · rintro ⟨cs, hc, hr⟩
    rw [(components_iff _ _).1 hc, (find_iff_reaches _ _ _ _ _).2 hr]


/-! ### reading -/

theorem dashes_eq : dashes = asciiBytes "---\n" := by decide +kernel

theorem webAddress_iff (f : String) : (hasPrefix f "http:" || hasPrefix f "https:") = true ↔ WebAddress f := by
  rw [Bool.or_eq_true, hasPrefix_iff, hasPrefix_iff]
  unfold WebAddress
  constructor
  · rintro (⟨r, h⟩ | ⟨r, h⟩)
    · exact .inl ⟨r, h.symm⟩
    · exact .inr ⟨r, h.symm⟩
  · rintro (⟨r, h⟩ | ⟨r, h⟩)
    · exact .inl ⟨r, h.symm⟩
    · exact .inr ⟨r, h.symm⟩

theorem readFile_iff (w : Surroundings) (f : String) (b : Bytes) : readFile w f = some b ↔ FileText w f b := by
  unfold readFile
  by_cases h : WebAddress f
  · rw [if_pos ((webAddress_iff f).2 h)]
    constructor
    · exact fun hb => .web f b h hb
    · intro hb; cases hb with
      | web _ hb => exact hb
      | file h' _ => exact absurd h h'
  · rw [if_neg (fun h' => h ((webAddress_iff f).1 h'))]
    constructor
    · exact fun hb => .file f b h hb
    · intro hb; cases hb with
      | web h' _ => exact absurd h' h
      | file _ hb => exact hb

theorem blankSource_iff (b : Bytes) : blankSource b = true ↔ ∀ c ∈ b, c = 32 ∨ c = 9 ∨ c = 10 ∨ c = 13 := by
  simp [blankSource, List.all_eq_true, or_assoc]

theorem sanitizeAll_iff (src : String) (ds : List Data) : ∀ docs : List (Node E),
    sanitizeAll src ds = some docs ↔ List.Forall₂ (fun d n => sanitize src d = some n) ds docs := by
  induction ds with
  | nil => intro docs; cases docs <;> simp [sanitizeAll]
  | cons d r ih =>
    intro docs
    simp only [sanitizeAll, consOpt_some]
    cases docs with
    | nil => simp
    | cons x xs => simp [ih, List.forall₂_cons]

theorem parseMulti_iff (L : CmdLib E S) (f : String) (b : Bytes) (docs : List (Node E)) :
    parseMulti L f b = some docs ↔ DocsOf L f b docs := by
  unfold parseMulti DocsOf
  rw [Option.bind_eq_some_iff, dashes_eq]
  simp only [blankSource_iff, sanitizeAll_iff]

theorem parseOne_ok (L : CmdLib E S) (f : String) (b : Bytes) (d : Node E) : parseOne L f b = .ok d ↔ DocsOf L f b [d] := by
  rw [← parseMulti_iff]
  unfold parseOne
  split <;> simp_all

theorem docsOf_unique {L : CmdLib E S} {f : String} {b : Bytes} {d d' : List (Node E)} (h : DocsOf L f b d) (h' : DocsOf L f b d') : d = d' := by
  rw [← parseMulti_iff] at h h'
  rw [h] at h'; exact Option.some.inj h'

theorem readStubs_ok (L : CmdLib E S) (w : Surroundings) (fs : List String) : ∀ (stdin : Bool) (ns : List (Node E)),
    readStubs L w stdin fs = .ok ns ↔ List.Forall₂ (DocOf L w) fs ns ∧ fs.count "-" ≤ if stdin then 0 else 1 := by
  induction fs with
  | nil => intro stdin ns; cases ns <;> simp [readStubs]
  | cons f r ih =>
    intro stdin ns
    unfold readStubs
    by_cases hf : f = "-"
    · subst hf
      rw [if_pos rfl]
      cases stdin with
      | true => simp
      | false =>
        simp only [Bool.false_eq_true, if_false, ebind_ok, emap_ok, parseOne_ok, ih, List.count_cons_self]
        cases ns with
        | nil => simp
        | cons n ns => simp [List.forall₂_cons, DocOf, TextOf, and_assoc]
    · rw [if_neg hf]
      have hcnt : (f :: r).count "-" = r.count "-" := by rw [List.count_cons_of_ne]; simpa using hf
      simp only [ebind_ok, emap_ok, parseOne_ok, orFatal_ok, ih, hcnt, readFile_iff]
      cases ns with
      | nil => simp
      | cons n ns =>
        simp only [List.forall₂_cons, DocOf, TextOf, if_neg hf]
        constructor
        · rintro ⟨b, hb, n', hn, ns', ⟨h1, h2⟩, he⟩
          simp only [List.cons.injEq] at he
          obtain ⟨rfl, rfl⟩ := he
          exact ⟨⟨⟨b, hb, hn⟩, h1⟩, h2⟩
        · rintro ⟨⟨⟨b, hb, hn⟩, h1⟩, h2⟩
          exact ⟨b, hb, n, hn, ns, ⟨h1, h2⟩, rfl⟩

theorem readYAML_ok (L : CmdLib E S) (w : Surroundings) (f : String) (o : Option (Node E)) :
    readYAML L w f = .ok o ↔ OptionalDoc L w f o := by
  unfold readYAML OptionalDoc
  by_cases hf : f = ""
  · simp [hf, eq_comm]
  · rw [if_neg hf]
    rcases hg : mget w.fs f with _ | b
    · simp [eq_comm]
    · simp only [emap_ok, parseOne_ok, hf, false_or, reduceCtorEq, if_false, Option.some.injEq]
      constructor
      · rintro ⟨n, hn, rfl⟩; exact ⟨b, n, rfl, hn, rfl⟩
      · rintro ⟨_, n, rfl, hn, rfl⟩; exact ⟨n, hn, rfl⟩

theorem mapFieldsOf_ok (n : Node E) (m : List (String × Node E)) : mapFieldsOf n = .ok m ↔ n.val = .map m := by
  unfold mapFieldsOf
  cases n.val <;> simp

/-! ### tag names -/

theorem tagWord_step (l : Nat) (hl : 0 < l) (c : List Char) (hc : ∀ x ∈ c, Letter x ∨ ('0' ≤ x ∧ x ≤ '9')) :
    ∀ r, ∃ l' > 0, checkTagName l (c ++ r) = checkTagName l' r := by
  induction c generalizing l with
  | nil => exact fun r => ⟨l, hl, rfl⟩
  | cons x c ih =>
    intro r
    obtain ⟨l', hl', h⟩ := ih (l + 1) (by omega) (fun y hy => hc y (by simp [hy])) r
    refine ⟨l', hl', ?_⟩
    rw [List.cons_append, checkTagName, h]
    have hx := hc x (by simp)
    have h1 : ¬ (x = ':' ∨ x = '.') := by
      rintro (rfl | rfl) <;> revert hx <;> unfold Letter <;> decide
    rw [if_neg h1]
    by_cases hd : '0' ≤ x ∧ x ≤ '9'
    · rw [if_pos hd, if_neg (by omega)]
    · rw [if_neg hd]
      rcases hx with (hx | hx) | hx
      · rw [if_pos hx]
      · by_cases ha : 'a' ≤ x ∧ x ≤ 'z'
        · rw [if_pos ha]
        · rw [if_neg ha, if_pos hx]
      · exact absurd hx hd

theorem tagWord_start (c : List Char) (hc : TagWord c) : ∀ r, ∃ l > 0, checkTagName 0 (c ++ r) = checkTagName l r := by
  obtain ⟨a, t, rfl, ha, ht⟩ := hc
  intro r
  obtain ⟨l, hl, h⟩ := tagWord_step 1 (by omega) t ht r
  refine ⟨l, hl, ?_⟩
  rw [List.cons_append, checkTagName, ← h]
  have h1 : ¬ (a = ':' ∨ a = '.') := by
    rintro (rfl | rfl) <;> revert ha <;> unfold Letter <;> decide
  have h2 : ¬ ('0' ≤ a ∧ a ≤ '9') := by
    unfold Letter at ha
    simp only [Char.le_def, UInt32.le_iff_toNat_le] at ha ⊢
    have e0 : ('0' : Char).val.toNat = 48 := rfl
    have e9 : ('9' : Char).val.toNat = 57 := rfl
    have ea : ('a' : Char).val.toNat = 97 := rfl
    have ez : ('z' : Char).val.toNat = 122 := rfl
    have eA : ('A' : Char).val.toNat = 65 := rfl
    have eZ : ('Z' : Char).val.toNat = 90 := rfl
    omega
  rw [if_neg h1, if_neg h2]
  by_cases hl : 'a' ≤ a ∧ a ≤ 'z'
  · rw [if_pos hl]
  · rw [if_neg hl]
    rcases ha with ha | ha
    · exact absurd ha hl
    · rw [if_pos ha]

/-- the rest of a tag name, inside of a component -/
def TagRest (r : List Char) : Prop := ∃ c, (∀ x ∈ c, Letter x ∨ ('0' ≤ x ∧ x ≤ '9')) ∧
  (r = c ∨ ∃ sep r', (sep = '.' ∨ sep = ':') ∧ r = c ++ sep :: r' ∧ TagName r')

theorem tagName_sound (t : List Char) : (checkTagName 0 t = true → TagName t) ∧ (∀ l > 0, checkTagName l t = true → TagRest t) := by
  induction t with
  | nil => exact ⟨fun _ => .nil, fun _ _ _ => ⟨[], by simp, .inl rfl⟩⟩
  | cons x t ih =>
    have more : ∀ l, checkTagName (l + 1) t = true → (Letter x ∨ ('0' ≤ x ∧ x ≤ '9')) → TagRest (x :: t) := by
      intro l h hx
      obtain ⟨c, hc, h⟩ := ih.2 (l + 1) (by omega) h
      refine ⟨x :: c, by intro y hy; rcases List.mem_cons.1 hy with rfl | hy; exacts [hx, hc y hy], ?_⟩
      rcases h with rfl | ⟨sep, r', hs, rfl, hr⟩
      · exact .inl rfl
      · exact .inr ⟨sep, r', hs, by simp, hr⟩
    have start : checkTagName 1 t = true → Letter x → TagName (x :: t) := by
      intro h hx
      obtain ⟨c, hc, h⟩ := ih.2 1 (by omega) h
      have hw : TagWord (x :: c) := ⟨x, c, rfl, hx, hc⟩
      rcases h with rfl | ⟨sep, r', hs, rfl, hr⟩
      · exact .last _ hw
      · have := TagName.more _ sep r' hw hs hr
        simpa using this
    constructor
    · intro h
      rw [checkTagName] at h
      split at h
      · simp at h
      · split at h
        · simp at h
        · split at h
          · next hl => exact start h (.inl hl)
          · split at h
            · next hl => exact start h (.inr hl)
            · cases h
    · intro l hl h
      rw [checkTagName] at h
      split at h
      · next hs =>
        rw [if_neg (by omega)] at h
        exact ⟨[], by simp, .inr ⟨x, t, hs.symm, rfl, ih.1 h⟩⟩
      · split at h
        · next hd => rw [if_neg (by omega)] at h; exact more l h (.inr hd)
        · split at h
          · next hl => exact more l h (.inl (.inl hl))
          · split at h
            · next hl => exact more l h (.inl (.inr hl))
            · cases h

theorem checkTagName_iff (t : List Char) : checkTagName 0 t = true ↔ TagName t := by
  refine ⟨(tagName_sound t).1, fun h => ?_⟩
  induction h with
  | nil => rfl
  | last c h =>
    obtain ⟨l, hl, h⟩ := tagWord_start c h []
    rw [List.append_nil] at h
    rw [h]; rfl
  | more c sep r h hs hr ih =>
    obtain ⟨l, hl, h⟩ := tagWord_start c h (sep :: r)
    rw [h, checkTagName, if_pos hs.symm, if_neg (by omega)]
    exact ih

/-! ### inputs -/

theorem readTag_ok (L : CmdLib E S) (w : Surroundings) (d : String) (t : String × Node E) : readTag L w d = .ok t ↔ TagDef L w d t := by
  unfold readTag TagDef
  constructor
  · intro h
    split at h
    · cases h
    · next a f hs =>
      obtain ⟨-, h1, h2⟩ := (splitColon_some _ a f).1 hs
      split at h
      · cases h
      · next hne =>
        split at h
        · next hc =>
          simp only [ebind_ok, emap_ok, orFatal_ok, parseOne_ok, readFile_iff] at h
          obtain ⟨b, hb, n, hn, rfl⟩ := h
          refine ⟨String.ofList f, b, ?_, ?_, ?_, ?_, hb, hn⟩
          · apply String.toList_injective; simp [h2]
          · intro h; exact hne (by simpa using congrArg String.toList h)
          · simpa using h1
          · simpa using (checkTagName_iff a).1 hc
        · cases h
  · rintro ⟨f, b, hd, hne, h1, hc, hb, hn⟩
    obtain ⟨name, n⟩ := t
    simp only at hd hne h1 hc hn
    have hne' : name.toList ≠ [] := fun h => hne (String.toList_injective (by simpa using h))
    have : splitColon d.toList = some (name.toList, f.toList) := (splitColon_some _ _ _).2 ⟨hne', h1, by rw [hd]; simp⟩
    rw [this]
    simp only [if_neg hne', if_pos ((checkTagName_iff _).2 hc), String.ofList_toList, ebind_ok, emap_ok, orFatal_ok, parseOne_ok, readFile_iff]
    exact ⟨b, hb, n, hn, rfl⟩

theorem readTags_ok (L : CmdLib E S) (w : Surroundings) (ds : List String) : ∀ ts : List (String × Node E),
    readTags L w ds = .ok ts ↔ List.Forall₂ (TagDef L w) ds ts := by
  induction ds with
  | nil => intro ts; cases ts <;> simp [readTags]
  | cons d r ih =>
    intro ts
    simp only [readTags, ebind_ok, emap_ok, readTag_ok, ih]
    cases ts with
    | nil => simp
    | cons t ts =>
      simp only [List.forall₂_cons]
      constructor
      · rintro ⟨t', ht, ts', hts, he⟩
        simp only [List.cons.injEq] at he
        obtain ⟨rfl, rfl⟩ := he
        exact ⟨ht, hts⟩
      · rintro ⟨ht, hts⟩; exact ⟨t, ht, ts, hts, rfl⟩

theorem setFlags_ok (f : Features) (ns : List (List Char)) : ∀ f', setFlags f ns = .ok f' ↔
    (∀ n ∈ ns, String.ofList (trimSpace n) ∈ ["interpolation", "control", "nointerpolation", "nocontrol"]) ∧
    f' = setFeatures f (ns.map (fun n => (String.ofList (trimSpace n), true))) := by
  induction ns generalizing f with
  | nil => intro f'; simp [setFlags, setFeatures, eq_comm]
  | cons n r ih =>
    intro f'
    unfold setFlags
    rcases hs : f.set (String.ofList (trimSpace n)) true with ⟨g, b⟩
    have ha := set_accepts_iff f (String.ofList (trimSpace n)) true
    rw [hs] at ha
    cases b with
    | true =>
      simp only [ih, List.forall_mem_cons, List.map_cons, setFeatures, List.foldl_cons, hs]
      simp only [true_iff] at ha
      simp only [List.mem_cons, List.not_mem_nil, or_false, ha, true_and]
    | false =>
      simp only [Bool.false_eq_true, false_iff] at ha
      simp only [reduceCtorEq, List.forall_mem_cons, false_iff]
      rintro ⟨⟨h, _⟩, _⟩
      exact ha (by simpa using h)

theorem envFlags_eq (s : List Char) : envFlags s = setFeatures [] ((splitCh ',' s).map (fun n => (String.ofList (trimSpace n), true))) := by
  unfold envFlags setFeatures
  rw [List.foldl_map]

theorem setFeatures_append (f : Features) (a b : List (String × Bool)) : setFeatures (setFeatures f a) b = setFeatures f (a ++ b) := by
  simp [setFeatures]

theorem lastSetting_true (x : String) (hx : Known x) (l : List String) : lastSetting x (l.map (fun n => (n, true))) = some true ↔
    ∃ before after, l = before ++ x :: after ∧ ("no" ++ x) ∉ after := by
  have hne : ("no" ++ x) ≠ x := by rcases hx with rfl | rfl <;> decide
  induction l using List.reverseRecOn with
  | nil => simp [lastSetting]
  | append_singleton l e ih =>
    have hl : lastSetting x ((l ++ [e]).map (fun n => (n, true))) = (setting x (e, true)).or (lastSetting x (l.map (fun n => (n, true)))) := by
      unfold lastSetting
      rw [List.map_append, List.filterMap_append, List.getLast?_append]
      congr 1
      simp only [List.map_cons, List.map_nil, List.filterMap_cons, List.filterMap_nil]
      cases setting x (e, true) <;> rfl
    rw [hl]
    by_cases h1 : e = x
    · subst h1
      simp only [setting, if_true, Option.some_or, true_iff]
      exact ⟨l, [], by simp⟩
    · by_cases h2 : e = "no" ++ x
      · simp only [setting, h2, hne, if_false, if_true, Option.some_or, Bool.not_true, Option.some.injEq, Bool.false_eq_true, false_iff]
        rintro ⟨before, after, he, hn⟩
        rcases List.eq_nil_or_concat after with rfl | ⟨a', y, rfl⟩
        · have := List.append_inj_right' he rfl
          simp at this
        · rw [List.concat_eq_append] at he hn
          rw [← List.cons_append, ← List.append_assoc] at he
          have := List.append_inj_right' he rfl
          simp at this; exact hn (by simp [← this])
      · simp only [setting, h1, h2, if_false, Option.none_or, ih]
        constructor
        · rintro ⟨before, after, rfl, hn⟩
          exact ⟨before, after ++ [e], by simp, by simp [hn, Ne.symm h2]⟩
        · rintro ⟨before, after, he, hn⟩
          rcases List.eq_nil_or_concat after with rfl | ⟨a', y, rfl⟩
          · have := List.append_inj_right' he rfl
            simp at this; exact absurd this h1
          · rw [List.concat_eq_append] at he hn
            rw [← List.cons_append, ← List.append_assoc] at he
            have := List.append_inj_left' he rfl
            exact ⟨before, a', this, fun h => hn (by simp [h])⟩

theorem setFeatures_known (l : List (String × Bool)) (f : Features) (h : ∀ x, f.enabled x = true → Known x) (x : String)
    (hx : (setFeatures f l).enabled x = true) : Known x := by
  induction l generalizing f with
  | nil => exact h x hx
  | cons e l ih =>
    refine ih (f.set e.1 e.2).1 ?_ hx
    intro y hy
    unfold Features.set at hy
    split at hy
    · next hk =>
      simp only at hy
      split at hy
      · unfold Features.enabled at hy
        rw [mget_mset] at hy
        split at hy
        · next he => rw [he]; exact hk
        · exact h y hy
      · unfold Features.enabled at hy
        rw [mget_mdel] at hy
        split at hy
        · simp at hy
        · exact h y hy
    · exact h y hy

theorem cmdFeatures_ok {w : Surroundings} {j : Job} {f : Features} (h : cmdFeatures w j = .ok f) : FeaturesOf w j f := by
  unfold cmdFeatures at h
  rw [emap_ok] at h
  obtain ⟨g, hg, rfl⟩ := h
  obtain ⟨hn, rfl⟩ := (setFlags_ok _ _ _).1 hg
  refine ⟨hn, fun x => ?_⟩
  rw [envFlags_eq, setFeatures_append, ← List.map_append]
  set names := splitCh ',' w.envFeatures ++ j.features.flatMap (splitCh ',')
  have hm : names.map (fun n => (String.ofList (trimSpace n), true)) = (names.map (fun n => String.ofList (trimSpace n))).map (fun n => (n, true)) := by
    simp
  rw [hm]
  have base : ∀ x, (setFeatures [] ((names.map (fun n => String.ofList (trimSpace n))).map (fun n => (n, true)))).enabled x = true ↔
      Known x ∧ ∃ before after, names.map (fun n => String.ofList (trimSpace n)) = before ++ x :: after ∧ ("no" ++ x) ∉ after := by
    intro x
    constructor
    · intro hx
      have hk := setFeatures_known _ [] (by simp [Features.enabled, mget]) x hx
      refine ⟨hk, (lastSetting_true x hk _).1 ?_⟩
      rw [feature_enabled_iff _ _ _ hk] at hx
      rcases hl : lastSetting x ((names.map (fun n => String.ofList (trimSpace n))).map (fun n => (n, true))) with _ | b
      · rw [hl] at hx; simp [Features.enabled, mget] at hx
      · rw [hl] at hx; simp at hx; rw [hx]
    · rintro ⟨hk, hx⟩
      rw [feature_enabled_iff _ _ _ hk, (lastSetting_true x hk _).2 hx]; rfl
  cases j.interpolation with
  | false => simpa [Known] using base x
  | true =>
    simp only [if_true]
    by_cases hx : x = "interpolation"
    · subst hx
      rw [enabled_set _ _ _ _ (.inl rfl)]
      simp [setting]
    · have : ((setFeatures [] ((names.map (fun n => String.ofList (trimSpace n))).map (fun n => (n, true)))).set "interpolation" true).1.enabled x
          = (setFeatures [] ((names.map (fun n => String.ofList (trimSpace n))).map (fun n => (n, true)))).enabled x := by
        unfold Features.set Features.enabled
        rw [splitNo_known (.inl rfl)]
        simp [mget_mset_ne, Ne.symm hx, hx]
      rw [this, base]
      simp [hx, Known]

theorem defineValues_ok (vs : List (String × List Char)) (b o : Option (Node E)) (h : defineValues vs b = .ok o) :
    (vs = [] ∧ o = b) ∨ (vs ≠ [] ∧ ∃ m m', (b.getD (Node.new (.map []) "<values>")).val = .map m ∧ addValues vs m = some m' ∧
      o = some ((b.getD (Node.new (.map []) "<values>")).withVal (.map m'))) := by
  unfold defineValues at h
  by_cases hv : vs = []
  · rw [if_pos hv] at h; exact .inl ⟨hv, by simpa using h.symm⟩
  · rw [if_neg hv] at h
    simp only [ebind_ok, emap_ok, mapFieldsOf_ok, orFatal_ok] at h
    obtain ⟨m, hm, m', hm', rfl⟩ := h
    exact .inr ⟨hv, m, m', hm, hm', rfl⟩

theorem features_none (f : Features) : f.length = 0 ↔ ∀ x, f.enabled x = false := by
  constructor
  · intro h; rw [List.length_eq_zero_iff] at h; subst h; intro x; rfl
  · intro h
    rcases f with _ | ⟨⟨k, u⟩, r⟩
    · rfl
    · have := h k; simp [Features.enabled, mget] at this

/-- **C67**: what the command reads before it starts. -/
theorem inputs_read (L : CmdLib E S) (w : Surroundings) (j : Job) (given : List (Node E)) (i : Inputs E)
    (h : readInputs L w j false given = .ok i) : InputsRead L w j given i := by
  unfold readInputs at h
  simp only [ebind_ok, emap_ok, orFatal_ok, parseMulti_iff, readYAML_ok, readTags_ok, readStubs_ok] at h
  obtain ⟨⟨t, used⟩, ht, docs, hdocs, state, hstate, b, hb, o, ho, tags, htags, stubs, ⟨hstubs, hcount⟩, f, hf, ctx, hctx, rfl⟩ := h
  have htu : TextOf w j.template t ∧ used = decide (j.template = "-") := by
    unfold readTemplate at ht
    unfold TextOf
    split at ht
    · next hd => simp only [Except.ok.injEq, Prod.mk.injEq] at ht; simp [hd, ← ht.1, ← ht.2]
    · next hd =>
      simp only [emap_ok, orFatal_ok, readFile_iff, Prod.mk.injEq] at ht
      obtain ⟨b, hb, rfl, rfl⟩ := ht
      simp [hd, hb]
  have hst : OptionalDoc L w j.statePath state ∧ (j.statePath ≠ "" → docs.length ≤ 1) := by
    unfold readState at hstate
    split at hstate
    · next hd => simp only [Except.ok.injEq] at hstate; simp [hd, OptionalDoc, ← hstate]
    · split at hstate
      · cases hstate
      · next hl => exact ⟨(readYAML_ok _ _ _ _).1 hstate, fun _ => by omega⟩
  have hfe := cmdFeatures_ok hf
  refine ⟨⟨t, htu.1, hdocs⟩, ?_, ⟨stubs, state, hstubs, hst.1, rfl⟩, hst.2, hfe, ?_⟩
  · rw [htu.2] at hcount
    by_cases hd : j.template = "-"
    · simp [hd] at hcount; simp [hd, hcount]
    · simp only [hd, decide_false, Bool.false_eq_true, if_false] at hcount
      rw [List.count_cons_of_ne]
      · exact hcount
      · simpa using hd
  · have hdef := defineValues_ok _ _ _ ho
    unfold cmdContext at hctx
    cases o with
    | none =>
      have hbn : j.values = [] ∧ b = none := by
        rcases hdef with ⟨h1, h2⟩ | ⟨_, _, _, _, _, h⟩
        · exact ⟨h1, h2.symm⟩
        · cases h
      refine ⟨none, tags, ⟨b, hb, ?_⟩, htags, ?_⟩
      · rw [hbn.2]; exact .inl ⟨hbn.1, rfl⟩
      · rw [← features_none]
        split at hctx
        · next hc =>
          right
          refine ⟨?_, by simpa using hctx.symm⟩
          rintro ⟨-, h1, h2, h3⟩
          change docs.length ≤ 1 at h3
          change f.length = 0 at h1
          simp [h1, h2] at hc; omega
        · next hc =>
          left
          simp only [Option.isSome_none, Bool.false_eq_true, false_or, not_or, gt_iff_lt, Nat.not_lt, Nat.le_zero] at hc
          exact ⟨rfl, hc.1, List.length_eq_zero_iff.1 hc.2.1, hc.2.2, by simpa using hctx.symm⟩
    | some n =>
      rw [if_pos (.inl rfl)] at hctx
      simp only [emap_ok, mapFieldsOf_ok] at hctx
      obtain ⟨m, hm, rfl⟩ := hctx
      refine ⟨some m, tags, ⟨b, hb, ?_⟩, htags, .inr ⟨by simp, rfl⟩⟩
      rcases hdef with ⟨h1, rfl⟩ | ⟨h1, m0, m', h2, h3, h4⟩
      · exact ⟨m, m, hm, by rw [h1]; rfl, rfl⟩
      · have hmm : m = m' := by
          simp only [Option.some.injEq] at h4
          rw [h4, Node.val_withVal] at hm
          exact (Val.map.inj hm).symm
        subst hmm
        cases b with
        | none =>
          simp only [Option.getD_none, Node.val_new] at h2
          cases h2
          exact .inr ⟨h1, m, h3, rfl⟩
        | some n0 => exact ⟨m0, m, h2, h3, rfl⟩

theorem optional_unique {L : CmdLib E S} {w : Surroundings} {f : String} {o o' : Option (Node E)} (h : OptionalDoc L w f o)
    (h' : OptionalDoc L w f o') : o = o' := by
  rw [← readYAML_ok] at h h'
  rw [h] at h'; exact Except.ok.inj h'

/-- **C67**: the command starts whenever everything can be read. -/
theorem inputs_accepted (L : CmdLib E S) (w : Surroundings) (j : Job) (given : List (Node E)) (i : Inputs E)
    (h : InputsRead L w j given i) : ∃ i', readInputs L w j false given = .ok i' ∧ i'.docs = i.docs ∧ i'.stubs = i.stubs ∧
      (∀ x, i'.features.enabled x = i.features.enabled x) := by
  obtain ⟨⟨t, ht, hdocs⟩, honce, ⟨ss, st, hss, hst, hstubs⟩, hstate, hfe, values, tags, ⟨b, hb, hvals⟩, htags, hctx⟩ := h
  have h1 : readTemplate w false j.template = .ok (t, decide (j.template = "-")) := by
    unfold readTemplate
    unfold TextOf at ht
    split
    · next hd => rw [if_pos hd] at ht; simp [hd, ht]
    · next hd => rw [if_neg hd] at ht; simp [hd, (readFile_iff w _ _).2 ht, orFatal, Except.map]
  have h2 : readState L w j i.docs.length = .ok st := by
    unfold readState
    split
    · next hd => simp [hd, OptionalDoc] at hst; rw [hst]
    · next hd => rw [if_neg (by have := hstate hd; omega)]; exact (readYAML_ok _ _ _ _).2 hst
  have h3 : readStubs L w (decide (j.template = "-")) j.stubs = .ok ss := by
    rw [readStubs_ok]
    refine ⟨hss, ?_⟩
    by_cases hd : j.template = "-"
    · simp [hd] at honce; simp [hd, honce]
    · rw [List.count_cons_of_ne (by simpa using hd)] at honce; simp [hd, honce]
  obtain ⟨o, ho, hov⟩ : ∃ o, defineValues j.values b = .ok o ∧ ((o = none ∧ values = none) ∨ ∃ n m, o = some n ∧ n.val = .map m ∧ values = some m) := by
    unfold defineValues
    by_cases hv : j.values = []
    · rw [if_pos hv]
      refine ⟨b, rfl, ?_⟩
      cases b with
      | none => rcases hvals with h | h
                · exact .inl ⟨rfl, h.2⟩
                · exact absurd hv h.1
      | some n =>
        obtain ⟨m, m', hm, ha, ho⟩ := hvals
        rw [hv] at ha; simp only [addValues, Option.some.injEq] at ha
        exact .inr ⟨n, m, rfl, hm, by rw [ho, ha]⟩
    · rw [if_neg hv]
      cases b with
      | none =>
        rcases hvals with h | ⟨_, m, ha, ho⟩
        · exact absurd h.1 hv
        · refine ⟨some ((Node.new (.map []) "<values>").withVal (.map m)), ?_, .inr ⟨_, m, rfl, Node.val_withVal _ _, ho⟩⟩
          simp [mapFieldsOf, Node.val_new, Except.bind, Except.map, ha, orFatal]
      | some n =>
        obtain ⟨m, m', hm, ha, ho⟩ := hvals
        refine ⟨some (n.withVal (.map m')), ?_, .inr ⟨_, m', rfl, Node.val_withVal _ _, ho⟩⟩
        simp [mapFieldsOf, hm, Except.bind, Except.map, ha, orFatal]
  obtain ⟨f, hf⟩ : ∃ f, cmdFeatures w j = .ok f := by
    unfold cmdFeatures
    rw [(setFlags_ok _ _ _).2 ⟨hfe.1, rfl⟩]
    exact ⟨_, rfl⟩
  obtain ⟨ctx, hc⟩ : ∃ ctx, cmdContext o f tags i.docs.length = .ok ctx := by
    unfold cmdContext
    split
    · rcases hov with ⟨rfl, _⟩ | ⟨n, m, rfl, hm, _⟩
      · exact ⟨_, rfl⟩
      · simp [mapFieldsOf, hm, Except.map]
    · exact ⟨_, rfl⟩
  refine ⟨⟨i.docs, given ++ ss ++ st.toList, ctx, f⟩, ?_, rfl, hstubs.symm, ?_⟩
  · unfold readInputs
    rw [h1]
    simp only [Except.bind, (parseMulti_iff L _ _ _).2 hdocs, orFatal, h2, (readYAML_ok L w _ _).2 hb, ho, (readTags_ok L w _ _).2 htags, h3, hf, hc,
      Except.map]
  · intro x
    have a := (cmdFeatures_ok hf).2 x
    have b := hfe.2 x
    rw [← b] at a
    exact Bool.eq_iff_iff.2 a

end Spiff
