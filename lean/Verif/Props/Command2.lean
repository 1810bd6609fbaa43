import Verif.Props.Command
/-
The commands of the command line tool (C67): the output.
-/
namespace Spiff
open Spiff.Spec
variable {E S : Type}

/-! ### printing -/

theorem lf_eq : ([10] : Bytes) = asciiBytes "\n" := by decide +kernel

theorem print_json (bs : List (Option Bytes)) (many : Bool) :
    bs.flatMap (printOne true many) = (bs.filterMap id).flatMap (fun b => b ++ asciiBytes "\n") := by
  induction bs with
  | nil => rfl
  | cons b r ih => cases b <;> simp [printOne, ih, lf_eq]

theorem print_many (bs : List (Option Bytes)) : bs.flatMap (printOne false true) = bs.flatMap (fun b => asciiBytes "---\n" ++ b.getD []) := by
  induction bs with
  | nil => rfl
  | cons b r ih => cases b <;> simp [printOne, ih, dashes_eq]

/-- **C67**: how the texts of the results are printed. -/
theorem printed_iff (json : Bool) (bs : List (Option Bytes)) (out : Bytes) : printAll json bs = out ↔ Printed json bs out := by
  have fwd : Printed json bs (printAll json bs) := by
    unfold printAll
    cases json with
    | true => rw [print_json]; exact .json bs
    | false =>
      rcases bs with _ | ⟨b, _ | ⟨b', r⟩⟩
      · exact .none
      · rcases b with _ | _ | ⟨x, b⟩
        · exact Printed.yaml [none] (by simp) (by simp)
        · exact Printed.yaml [some []] (by simp) (by simp)
        · have := Printed.single (x :: b) (by simp)
          simpa [printOne] using this
      · have : decide ((b :: b' :: r).length > 1) = true := by simp
        rw [this, print_many]
        exact Printed.yaml _ (by simp) (by simp)
  constructor
  · rintro rfl; exact fwd
  · intro h
    cases h with
    | single _ h =>
      have : out.isEmpty = false := by cases out <;> simp_all
      simp [printAll, printOne, this]
    | none => rfl
    | json bs => unfold printAll; rw [print_json]
    | yaml bs h h0 =>
      unfold printAll
      rcases bs with _ | ⟨b, _ | ⟨b', r⟩⟩
      · exact absurd rfl h0
      · cases b with
        | none => simp [printOne, dashes_eq]
        | some b => have := h b rfl; subst this; simp [printOne, dashes_eq]
      · have : decide ((b :: b' :: r).length > 1) = true := by simp
        rw [this, print_many]

/-! ### one document -/

theorem takePath_ok (f : Features) (p : String) (n x : Node E) :
    takePath f p n = .ok x ↔ if p = "" then x = n else AtPath (f.enabled "control") n p x := by
  unfold takePath
  split
  · simp [eq_comm]
  · exact lookPath_ok _ _ _ _

theorem stored_snoc {ctl : Bool} {n : Node E} {ps : List String} {p : String} {m' : List (String × Node E)} (h : Stored ctl n (ps ++ [p]) m') :
    ∃ m cs k x, Stored ctl n ps m ∧ AtPath ctl n p x ∧ Components p.toList (cs ++ [k]) ∧ m' = mset m k x := by
  generalize hq : ps ++ [p] = qs at h
  cases h with
  | nil => simp at hq
  | snoc ps' p' m cs k x h hx hk =>
    have h1 := List.append_inj_left' hq rfl
    have h2 := List.append_inj_right' hq rfl
    simp at h2
    subst h1; subst h2
    exact ⟨m, cs, k, x, h, hx, hk, rfl⟩

theorem selectAll_append (f : Features) (n : Node E) (ps qs : List String) : ∀ new,
    selectAll f n new (ps ++ qs) = (selectAll f n new ps).bind (fun m => selectAll f n m qs) := by
  induction ps with
  | nil => intro new; rfl
  | cons p ps ih =>
    intro new
    simp only [List.cons_append, selectAll]
    rcases lookPath f n p with e | x
    · rfl
    · simp only [Except.bind]
      rcases (optionPath p).getLast? with _ | k
      · rfl
      · simp only [ih]; rfl

theorem selectAll_ok (f : Features) (n : Node E) (ps : List String) : ∀ m,
    selectAll f n [] ps = .ok m ↔ Stored (f.enabled "control") n ps m := by
  induction ps using List.reverseRecOn with
  | nil =>
    intro m
    constructor
    · intro h; simp only [selectAll, Except.ok.injEq] at h; subst h; exact .nil
    · intro h
      generalize hq : ([] : List String) = qs at h
      cases h with
      | nil => rfl
      | snoc => simp at hq
  | append_singleton ps p ih =>
    intro m
    rw [selectAll_append, ebind_ok]
    simp only [ih, selectAll, ebind_ok, lookPath_ok]
    constructor
    · rintro ⟨m0, h0, x, hx, h⟩
      split at h
      · cases h
      · next k hk =>
        simp only [Except.ok.injEq] at h; subst h
        rw [List.getLast?_eq_some_iff] at hk
        obtain ⟨cs, hcs⟩ := hk
        exact .snoc ps p m0 cs k x h0 hx ((components_iff _ _).2 hcs)
    · intro h
      obtain ⟨m0, cs, k, x, h0, hx, hk, rfl⟩ := stored_snoc h
      refine ⟨m0, h0, x, hx, ?_⟩
      rw [(components_iff _ _).1 hk]
      simp

theorem selectFields_ok (f : Features) (ps : List String) (n x : Node E) :
    selectFields f ps n = .ok x ↔ if ps = [] then x = n else ∃ m, x = Node.new (.map m) "" ∧ Stored (f.enabled "control") n ps m := by
  unfold selectFields
  split
  · simp [eq_comm]
  · simp only [emap_ok, selectAll_ok]
    constructor
    · rintro ⟨m, h, rfl⟩; exact ⟨m, rfl, h⟩
    · rintro ⟨m, rfl, h⟩; exact ⟨m, h, rfl⟩

/-- **C67**: the content of the map made by selecting paths. -/
theorem selected_fields (ctl : Bool) (n : Node E) (ps : List String) (m : List (String × Node E)) (h : Stored ctl n ps m) :
    MapOK m ∧ SelectedFields ctl n ps m := by
  induction h with
  | nil => exact ⟨by simp [MapOK, mkeys], by simp, by simp [mget]⟩
  | snoc ps p m cs k x h hx hk ih =>
    obtain ⟨hm, hall, hget⟩ := ih
    refine ⟨MapOK_mset hm _ _, ?_, ?_⟩
    · intro q hq
      rcases List.mem_append.1 hq with hq | hq
      · exact hall q hq
      · simp at hq; subst hq; exact ⟨x, cs ++ [k], hx, hk, by simp⟩
    · intro k' x'
      have uniq : ∀ {q cs cs'}, Components q cs → Components q cs' → cs = cs' := by
        intro q cs cs' h h'
        have a := components_fold h []
        have b := components_fold h' []
        rw [a] at b
        simp only [List.nil_append] at b
        exact List.map_injective_iff.2 (fun _ _ h => String.toList_injective h) b
      have uniqx : ∀ {y y'}, AtPath ctl n p y → AtPath ctl n p y' → y = y' := by
        rintro y y' ⟨c1, h1, r1⟩ ⟨c2, h2, r2⟩
        rw [uniq h1 h2] at r1
        have a := (find_iff_reaches _ _ _ _ _).2 r1
        have b := (find_iff_reaches _ _ _ _ _).2 r2
        rw [a] at b; cases b; rfl
      rw [mget_mset]
      by_cases hkk : k' = k
      · subst hkk
        rw [if_pos rfl]
        constructor
        · intro he; cases he
          exact ⟨ps, p, [], rfl, hx, ⟨cs, hk⟩, by simp⟩
        · rintro ⟨before, q, after, he, hq, hqc, hno⟩
          rcases List.eq_nil_or_concat after with rfl | ⟨a', y, rfl⟩
          · have := List.append_inj_right' he rfl
            simp at this; subst this
            rw [uniqx hx hq]
          · rw [List.concat_eq_append, ← List.cons_append, ← List.append_assoc] at he
            have := List.append_inj_right' he rfl
            simp at this; subst this
            exact absurd ⟨cs, hk⟩ (hno p (by simp))
      · rw [if_neg (by simpa [eq_comm] using hkk), hget]
        have hnp : ¬ ∃ cs, Components p.toList (cs ++ [k']) := by
          rintro ⟨c, hc⟩
          have := uniq hk hc
          exact hkk (by have := List.append_inj_right' this rfl; simp at this; exact this.symm)
        constructor
        · rintro ⟨before, q, after, rfl, hq, hqc, hno⟩
          refine ⟨before, q, after ++ [p], by simp, hq, hqc, ?_⟩
          intro y hy
          rcases List.mem_append.1 hy with hy | hy
          · exact hno y hy
          · simp at hy; subst hy; exact hnp
        · rintro ⟨before, q, after, he, hq, hqc, hno⟩
          rcases List.eq_nil_or_concat after with rfl | ⟨a', y, rfl⟩
          · have := List.append_inj_right' he rfl
            simp at this; subst this
            exact absurd hqc hnp
          · rw [List.concat_eq_append, ← List.cons_append, ← List.append_assoc] at he
            exact ⟨before, q, a', List.append_inj_left' he rfl, hq, hqc, fun z hz => hno z (by simp [hz])⟩

theorem renderText_ok (L : CmdLib E S) (json : Bool) (n : Node E) (b : Bytes) : renderText L json n = .ok b ↔ TextFor L json n (some b) := by
  unfold renderText TextFor
  rw [orFatal_ok]
  cases json <;> simp

theorem renderAll_ok (L : CmdLib E S) (json : Bool) (l : List (Node E)) : ∀ outs,
    renderAll L json l = .ok outs ↔ List.Forall₂ (TextFor L json) l outs := by
  induction l with
  | nil => intro outs; cases outs <;> simp [renderAll]
  | cons n r ih =>
    intro outs
    simp only [renderAll, ebind_ok, emap_ok, renderText_ok, ih]
    cases outs with
    | nil => simp
    | cons o outs =>
      simp only [List.forall₂_cons]
      constructor
      · rintro ⟨b, hb, bs, hbs, he⟩
        simp only [List.cons.injEq] at he
        obtain ⟨rfl, rfl⟩ := he
        exact ⟨hb, hbs⟩
      · rintro ⟨ho, hos⟩
        obtain ⟨b, rfl, _⟩ := id ho
        exact ⟨b, ho, outs, hos, rfl⟩

theorem renderDoc_ok (L : CmdLib E S) (json split : Bool) (n : Node E) (outs : List (Option Bytes)) :
    renderDoc L json split n = .ok outs ↔ ∃ parts, Parts split n parts ∧ List.Forall₂ (TextFor L json) parts outs := by
  by_cases hc : split = true ∧ ∃ l, n.val = .list l
  · obtain ⟨hs, l, hv⟩ := hc
    have : renderDoc L json split n = renderAll L json l := by unfold renderDoc; rw [hs, hv]
    rw [this, renderAll_ok]
    constructor
    · exact fun h => ⟨l, .entries n l hs hv, h⟩
    · rintro ⟨parts, hp, h⟩
      cases hp with
      | entries _ _ hv' => rw [hv] at hv'; cases hv'; exact h
      | whole h' => exact absurd hv (h' hs l)
  · have hw : split = true → ∀ l, n.val ≠ .list l := fun hs l hl => hc ⟨hs, l, hl⟩
    have : renderDoc L json split n = (renderText L json n).map (fun b => [some b]) := by
      unfold renderDoc
      cases hs : split with
      | false => cases n.val <;> rfl
      | true => cases hv : n.val with
        | list l => exact absurd hv (hw hs l)
        | _ => rfl
    rw [this]
    simp only [emap_ok, renderText_ok]
    constructor
    · rintro ⟨b, hb, rfl⟩
      exact ⟨[n], .whole n hw, .cons hb .nil⟩
    · rintro ⟨parts, hp, h⟩
      cases hp with
      | entries l hs hv => exact absurd hv (hw hs parts)
      | whole _ =>
        cases h with
        | cons h0 h1 =>
          cases h1
          obtain ⟨b, rfl, _⟩ := id h0
          exact ⟨b, h0, rfl⟩

theorem evaluateExpr_ok (L : CmdLib E S) (expr : String) (s s' : S) (n v : Node E) :
    evaluateExpr L expr s n = (s', .ok v) ↔ if expr = "" then s' = s ∧ v = n
      else ∃ e m, L.parse expr = some e ∧ n.val = .map m ∧ L.evaluate s m e = (s', some v) := by
  unfold evaluateExpr
  by_cases he : expr = ""
  · simp only [if_pos he, Prod.mk.injEq, Except.ok.injEq]
    exact ⟨fun h => ⟨h.1.symm, h.2.symm⟩, fun h => ⟨h.1.symm, h.2.symm⟩⟩
  · rw [if_neg he, if_neg he]
    rcases L.parse expr with _ | e
    · simp
    · simp only
      rcases hf : mapFieldsOf n with x | m
      · simp only [Prod.mk.injEq, reduceCtorEq, and_false, false_iff, Option.some.injEq]
        rintro ⟨_, m, _, hm, _⟩
        rw [(mapFieldsOf_ok n m).2 hm] at hf; cases hf
      · simp only
        rw [mapFieldsOf_ok] at hf
        rcases hev : L.evaluate s m e with ⟨s1, _ | v1⟩
        · simp only [Prod.mk.injEq, reduceCtorEq, and_false, false_iff, Option.some.injEq]
          rintro ⟨_, m', rfl, hm, h⟩
          rw [hf] at hm; cases hm
          rw [hev] at h; cases h
        · simp only [Prod.mk.injEq, Except.ok.injEq, Option.some.injEq]
          constructor
          · rintro ⟨rfl, rfl⟩; exact ⟨e, m, rfl, hf, hev⟩
          · rintro ⟨_, m', rfl, hm, h⟩
            rw [hf] at hm; cases hm
            rw [hev] at h; cases h; exact ⟨rfl, rfl⟩

theorem finishDoc_ok (L : CmdLib E S) (j : Job) (f : Features) (s s' : S) (n : Node E) (outs : List (Option Bytes)) :
    finishDoc L j f s n = (s', .ok outs) ↔ ∃ v x parts,
      (if j.expr = "" then s' = s ∧ v = n else ∃ e m, L.parse j.expr = some e ∧ n.val = .map m ∧ L.evaluate s m e = (s', some v)) ∧
      (if j.selection = [] then x = v else ∃ m, x = Node.new (.map m) "" ∧ Stored (f.enabled "control") v j.selection m) ∧
      Parts j.split x parts ∧ List.Forall₂ (TextFor L j.json) parts outs := by
  unfold finishDoc
  constructor
  · intro h
    split at h
    · simp at h
    · next s1 v hv =>
      simp only [Prod.mk.injEq, ebind_ok, selectFields_ok, renderDoc_ok] at h
      obtain ⟨rfl, x, hx, parts, hp, ho⟩ := h
      exact ⟨v, x, parts, (evaluateExpr_ok _ _ _ _ _ _).1 hv, hx, hp, ho⟩
  · rintro ⟨v, x, parts, hv, hx, hp, ho⟩
    rw [(evaluateExpr_ok _ _ _ _ _ _).2 hv]
    simp only [Prod.mk.injEq, true_and, ebind_ok]
    exact ⟨x, (selectFields_ok _ _ _ _).2 hx, (renderDoc_ok _ _ _ _ _).2 ⟨parts, hp, ho⟩⟩

theorem updateState_last (fs : FileSys) (p : String) (d : Bytes) (r : Bool) (e : WriteEnd) : ∃ fs', (updateState fs p d r e).getLast? = some fs' := by
  unfold updateState
  exact Option.isSome_iff_exists.1 (by simp)

theorem applied_iff (L : CmdLib E S) (ip : Bool) (opts : Options) (prepared : List (Node E)) (s : S) (t : Node E) (s' : S) (r : Node E)
    (err : Option String) : applyDoc L ip opts prepared s t = (s', r, err) ↔ Applied L ip opts prepared s t s' r err := by
  unfold applyDoc
  constructor
  · intro h
    rcases hf : L.flow s t prepared with ⟨s1, x, _ | e⟩
    · rw [hf] at h
      simp only [Prod.mk.injEq] at h
      obtain ⟨rfl, rfl, rfl⟩ := h
      refine .finished s1 x (if opts.preserveTemporary then x else cleanup discardTemporary () x) _ hf ?_ ?_
      · cases opts.preserveTemporary <;> simp
      · cases opts.preserveEscapes <;> simp
    · rw [hf] at h
      simp only [Prod.mk.injEq] at h
      obtain ⟨rfl, rfl, rfl⟩ := h
      exact .failed _ _ _ hf
  · intro h
    cases h with
    | failed _ _ e hf => rw [hf]
    | finished s1 r0 x _ hf ht hu =>
      rw [hf]
      rcases ht with ⟨h1, rfl⟩ | ⟨h1, rfl⟩ <;> rcases hu with ⟨h2, rfl⟩ | ⟨h2, rfl⟩ <;> simp [h1, h2]

theorem prepared_iff (L : CmdLib E S) (p : Bool) (s : S) (stubs : List (Node E)) : ∀ s' done,
    prepareAll L p s stubs = (s', some done) ↔ StubsPrepared L p s stubs s' done := by
  induction stubs with
  | nil =>
    intro s' done
    simp only [prepareAll, Prod.mk.injEq, Option.some.injEq]
    constructor
    · rintro ⟨rfl, rfl⟩; exact .nil
    · intro h; cases h; exact ⟨rfl, rfl⟩
  | cons x rest ih =>
    intro s' done
    unfold prepareAll
    constructor
    · intro h
      rcases hr : prepareAll L p s rest with ⟨s1, _ | d⟩
      · rw [hr] at h; simp at h
      · rw [hr] at h
        simp only at h
        rcases hf : L.flow (L.reset s1) x d with ⟨s2, r, _ | e⟩
        · rw [hf] at h
          simp only [Prod.mk.injEq, Option.some.injEq] at h
          obtain ⟨rfl, rfl⟩ := h
          exact .cons x rest s1 s2 d r none ((ih _ _).1 hr) hf (fun _ => rfl)
        · rw [hf] at h
          simp only at h
          cases p with
          | false => simp at h
          | true =>
            simp only [if_true, Prod.mk.injEq, Option.some.injEq] at h
            obtain ⟨rfl, rfl⟩ := h
            exact .cons x rest s1 s2 d r (some e) ((ih _ _).1 hr) hf (by simp)
    · intro h
      cases h with
      | cons _ _ s1 _ d r err h hf he =>
        rw [(ih _ _).2 h]
        simp only [hf]
        cases err with
        | none => rfl
        | some e =>
          cases p with
          | false => simp at he
          | true => rfl

theorem reset_sound (text : E → String) (n : Node E) : Reset text n (resetNodes text n) := by
  refine Node.rec (motive_1 := fun v => ∀ s a, Reset text (.mk v s a) (resetNodes text (.mk v s a)))
    (motive_2 := fun n => Reset text n (resetNodes text n))
    (motive_3 := fun l => List.Forall₂ (Reset text) l (resetList text l))
    (motive_4 := fun m => m.map Prod.fst = (resetMap text m).map Prod.fst ∧ List.Forall₂ (Reset text) (m.map Prod.snd) ((resetMap text m).map Prod.snd))
    (motive_5 := fun e => Reset text e.2 (resetNodes text e.2))
    ?_ ?_ ?_ ?_ ?_ ?_ ?_ ?_ ?_ ?_ ?_ ?_ ?_ ?_ ?_ ?_ n
  · intro s a; exact .same _ _ _ (by simp) (by simp) (by simp)
  · intro b s a; exact .same _ _ _ (by simp) (by simp) (by simp)
  · intro b s a; exact .same _ _ _ (by simp) (by simp) (by simp)
  · intro b s a; exact .same _ _ _ (by simp) (by simp) (by simp)
  · intro b s a; exact .same _ _ _ (by simp) (by simp) (by simp)
  · intro l h s a; exact .list _ _ _ _ h
  · intro m h s a; exact .map _ _ _ _ h.1 h.2
  · intro e s a; exact .expr _ _ _
  · intro b _ s a; exact .same _ _ _ (by simp) (by simp) (by simp)
  · intro b s a; exact .same _ _ _ (by simp) (by simp) (by simp)
  · intro v s a h; exact h s a
  · exact .nil
  · intro x r h1 h2; exact .cons h1 h2
  · exact ⟨rfl, .nil⟩
  · rintro ⟨k, x⟩ r h1 h2
    exact ⟨by simp [resetMap, h2.1], .cons h1 h2.2⟩
  · intro k x h; exact h

theorem reset_unique {text : E → String} (n : Node E) : ∀ n', Reset text n n' → n' = resetNodes text n := by
  refine Node.rec (motive_1 := fun v => ∀ s a n', Reset text (.mk v s a) n' → n' = resetNodes text (.mk v s a))
    (motive_2 := fun n => ∀ n', Reset text n n' → n' = resetNodes text n)
    (motive_3 := fun l => ∀ l', List.Forall₂ (Reset text) l l' → l' = resetList text l)
    (motive_4 := fun m => ∀ m', m.map Prod.fst = m'.map Prod.fst → List.Forall₂ (Reset text) (m.map Prod.snd) (m'.map Prod.snd) → m' = resetMap text m)
    (motive_5 := fun e => ∀ n', Reset text e.2 n' → n' = resetNodes text e.2)
    ?_ ?_ ?_ ?_ ?_ ?_ ?_ ?_ ?_ ?_ ?_ ?_ ?_ ?_ ?_ ?_ n
  · intro s a n' h; cases h; rfl
  · intro b s a n' h; cases h; rfl
  · intro b s a n' h; cases h; rfl
  · intro b s a n' h; cases h; rfl
  · intro b s a n' h; cases h; rfl
  · intro l ih s a n' h
    cases h with
    | list _ l' _ _ h => rw [ih _ h]; rfl
    | same _ _ _ h1 h2 h3 => exact absurd rfl (h2 _)
  · intro m ih s a n' h
    cases h with
    | map _ m' _ _ hk h => rw [ih _ hk h]; rfl
    | same _ _ _ h1 h2 h3 => exact absurd rfl (h3 _)
  · intro e s a n' h
    cases h with
    | expr => rfl
    | same _ _ _ h1 h2 h3 => exact absurd rfl (h1 _)
  · intro b _ s a n' h; cases h; rfl
  · intro b s a n' h; cases h; rfl
  · intro v s a h n' hr; exact h s a n' hr
  · intro l' h; cases h; rfl
  · intro x r h1 h2 l' h
    cases h with
    | cons a b => rw [h1 _ a, h2 _ b]; rfl
  · intro m' hk h
    cases m' with
    | nil => rfl
    | cons => simp at hk
  · rintro ⟨k, x⟩ r h1 h2 m' hk h
    cases m' with
    | nil => simp at hk
    | cons e m' =>
      obtain ⟨k', x'⟩ := e
      simp only [List.map_cons, List.cons.injEq] at hk
      simp only [List.map_cons, List.forall₂_cons] at h
      obtain ⟨rfl, hk⟩ := hk
      rw [h1 _ h.1, h2 _ hk h.2]; rfl
  · intro k x h; exact h

theorem reset_iff (text : E → String) (n n' : Node E) : Reset text n n' ↔ n' = resetNodes text n :=
  ⟨reset_unique n n', fun h => h ▸ reset_sound text n⟩

theorem hasSuffix_iff (s x : String) : hasSuffix s x = true ↔ ∃ r, s = r ++ x := by
  unfold hasSuffix
  rw [List.isSuffixOf_iff_suffix]
  constructor
  · rintro ⟨t, ht⟩
    refine ⟨String.ofList t, ?_⟩
    rw [← String.toList_inj]; simp [ht]
  · rintro ⟨r, rfl⟩
    exact ⟨r.toList, by simp⟩

/-- two names of file types exclude each other -/
theorem suffix_excl (s a b : String) (hab : ¬ (a.toList <:+ b.toList) ∧ ¬ (b.toList <:+ a.toList)) (h1 : hasSuffix s a = true)
    (h2 : hasSuffix s b = true) : False := by
  unfold hasSuffix at h1 h2
  rw [List.isSuffixOf_iff_suffix] at h1 h2
  rcases List.suffix_or_suffix_of_suffix h1 h2 with h | h
  · exact hab.1 h
  · exact hab.2 h

theorem stateText_iff (L : CmdLib E S) (j : Job) (n : Node E) (b : Bytes) : StateText L j n b ↔ b = stateText L j n := by
  obtain ⟨json, hj, ht⟩ : ∃ json : Bool, (json = true ↔ (∃ x, j.statePath = x ++ ".json") ∨
      (j.json = true ∧ ¬ (∃ x, j.statePath = x ++ ".yaml") ∧ ¬ (∃ x, j.statePath = x ++ ".yml"))) ∧
      stateText L j n = ((if json then L.json (determineState n) else L.yaml (determineState n))).getD [] := by
    refine ⟨_, ?_, rfl⟩
    simp only [← hasSuffix_iff]
    have e1 := suffix_excl j.statePath ".yaml" ".json" (by decide +kernel)
    have e2 := suffix_excl j.statePath ".yml" ".json" (by decide +kernel)
    cases h1 : hasSuffix j.statePath ".yaml" <;> cases h2 : hasSuffix j.statePath ".yml" <;> cases h3 : hasSuffix j.statePath ".json" <;>
      simp_all
  rw [ht]
  unfold StateText TextFor
  constructor
  · rintro ⟨json', hj', h⟩
    have : json' = json := Bool.eq_iff_iff.2 (hj'.trans hj.symm)
    subst this
    cases json' <;> simp only [Bool.false_eq_true, if_true, if_false, true_implies, false_implies, and_true, true_and] at h ⊢
    · rcases h with ⟨x, hx, h⟩ | ⟨h, rfl⟩
      · cases hx; rw [h]; rfl
      · rcases hy : L.yaml (determineState n) with _ | y
        · rfl
        · exact absurd ⟨y, rfl, hy⟩ (h (some y))
    · rcases h with ⟨x, hx, h⟩ | ⟨h, rfl⟩
      · cases hx; rw [h.1]; rfl
      · rcases hy : L.json (determineState n) with _ | y
        · rfl
        · exact absurd ⟨y, rfl, hy, by simp⟩ (h (some y))
  · rintro rfl
    refine ⟨json, hj, ?_⟩
    cases json <;> simp only [Bool.false_eq_true, if_true, if_false, true_implies, false_implies, and_true, true_and]
    · rcases hy : L.yaml (determineState n) with _ | y
      · right; exact ⟨by simp, rfl⟩
      · left; exact ⟨y, rfl, rfl⟩
    · rcases hy : L.json (determineState n) with _ | y
      · right; exact ⟨by simp, rfl⟩
      · left; exact ⟨y, rfl, rfl, by simp⟩

theorem writeState_ok (L : CmdLib E S) (w : Surroundings) (j : Job) (fs fs' : FileSys) (n : Node E) :
    writeState L w j fs n = (fs', .ok ()) ↔ if j.statePath = "" then fs' = fs
        else w.write = .ok ∧ ∃ b, StateText L j n b ∧ (updateState fs j.statePath b w.renameWorks .ok).getLast? = some fs' := by
  unfold writeState
  split
  · simp [eq_comm]
  · simp only [stateText_iff, exists_eq_left]
    obtain ⟨g, hg⟩ := updateState_last fs j.statePath (stateText L j n) w.renameWorks w.write
    cases hw : w.write with
    | ok => rw [hw] at hg; rw [hg]; simp
    | openFails => simp
    | failsAfter k => simp

/-- the conditions on a processed document -/
theorem reset_cases (L : CmdLib E S) (j : Job) (r r' : Node E) (err : Option String) :
    ((err = none ∧ r' = r) ∨ (err ≠ none ∧ j.opts.isPartial = true ∧ Reset L.text r r')) ↔
      (!j.opts.isPartial && err.isSome) = false ∧ r' = (if err.isSome then resetNodes L.text r else r) := by
  rw [reset_iff]
  cases err <;> cases j.opts.isPartial <;> simp

theorem isNil_iff (v : Val E) : v.isNil = true ↔ v = .nil := by cases v <;> simp [Val.isNil]

/-- one document of the template -/
theorem oneDoc_ok (L : CmdLib E S) (w : Surroundings) (j : Job) (f : Features) (prepared : List (Node E)) (s s' : S) (fs fs' : FileSys)
    (t : Node E) (outs : List (Option Bytes)) :
    oneDoc L w j f prepared s fs t = (s', fs', .ok outs) ↔ DocShown L w j f prepared s fs t s' fs' outs := by
  constructor
  · intro h
    unfold oneDoc at h
    split at h
    · next hn => cases h; exact .empty _ _ _ ((isNil_iff _).1 hn)
    · next hn =>
      have hn : t.val ≠ .nil := fun h => hn ((isNil_iff _).2 h)
      rcases ha : applyDoc L (f.enabled "interpolation") j.opts prepared s t with ⟨s1, r, err⟩
      unfold flowedDoc at h
      rw [ha] at h
      rw [applied_iff] at ha
      simp only at h
      by_cases hb : (!j.opts.isPartial && err.isSome) = true
      · simp [hb] at h
      · have hb : (!j.opts.isPartial && err.isSome) = false := by simpa using hb
        obtain ⟨r', hr'⟩ : ∃ r', r' = (if err.isSome then resetNodes L.text r else r) := ⟨_, rfl⟩
        have hp := (reset_cases L j r r' err).2 ⟨hb, hr'⟩
        simp only [hb, Bool.false_eq_true, if_false, ← hr'] at h
        by_cases ht : j.opts.preserveTemporary = false ∧ r'.ann.flags.temporary = true
        · simp only [ht.1, ht.2, Bool.not_false, Bool.and_self, if_true] at h
          cases h
          exact .temporary _ _ _ _ r r' err hn ha hp ht.1 ht.2
        · have ht' : (!j.opts.preserveTemporary && r'.ann.flags.temporary) = false := by
            cases h1 : j.opts.preserveTemporary <;> cases h2 : r'.ann.flags.temporary <;> simp_all
          simp only [ht', Bool.false_eq_true, if_false] at h
          split at h
          · simp at h
          · next n hn' =>
            split at h
            · simp at h
            · next fs1 hw =>
              rcases hfin : finishDoc L j f s1 n with ⟨s2, r2⟩
              rw [hfin] at h
              simp only [Prod.mk.injEq] at h
              obtain ⟨rfl, rfl, rfl⟩ := h
              obtain ⟨v, x, parts, h1, h2, h3, h4⟩ := (finishDoc_ok _ _ _ _ _ _ _).1 hfin
              refine .shown s s1 s2 fs fs1 t r r' err n v x parts outs hn ha hp ?_ ((takePath_ok _ _ _ _).1 hn') ((writeState_ok _ _ _ _ _ _).1 hw) h1 h2 h3 h4
              cases h1 : j.opts.preserveTemporary
              · right
                cases h2 : r'.ann.flags.temporary
                · rfl
                · exact absurd ⟨h1, h2⟩ ht
              · exact .inl rfl
  · intro h
    unfold oneDoc flowedDoc
    cases h with
    | empty _ _ hn => rw [if_pos ((isNil_iff _).2 hn)]
    | temporary _ _ _ r r' err hn ha hp hk ht =>
      obtain ⟨hb, hr'⟩ := (reset_cases L j r r' err).1 hp
      rw [if_neg (fun h => hn ((isNil_iff _).1 h)), (applied_iff _ _ _ _ _ _ _ _ _).2 ha]
      simp only [hb, Bool.false_eq_true, if_false, ← hr', hk, ht, Bool.not_false, Bool.and_self, if_true]
    | shown s1 _ _ _ _ r r' err n v x parts _ hn ha hp ht hpath hstate heval hsel hparts houts =>
      obtain ⟨hb, hr'⟩ := (reset_cases L j r r' err).1 hp
      rw [if_neg (fun h => hn ((isNil_iff _).1 h)), (applied_iff _ _ _ _ _ _ _ _ _).2 ha]
      have ht' : (!j.opts.preserveTemporary && r'.ann.flags.temporary) = false := by
        rcases ht with ht | ht
        · simp [ht]
        · rw [ht]; simp
      simp only [hb, Bool.false_eq_true, if_false, ← hr', ht']
      rw [(takePath_ok _ _ _ _).2 hpath]
      simp only
      rw [(writeState_ok _ _ _ _ _ _).2 hstate]
      simp only
      rw [(finishDoc_ok _ _ _ _ _ _ _).2 ⟨v, x, parts, heval, hsel, hparts, houts⟩]

theorem allDocs_ok (L : CmdLib E S) (w : Surroundings) (j : Job) (f : Features) (prepared : List (Node E)) (ts : List (Node E)) :
    ∀ (s : S) (fs fs' : FileSys) (outs : List (Option Bytes)),
    allDocs L w j f prepared s fs ts = (fs', .ok outs) ↔ DocsShown L w j f prepared s fs ts fs' outs := by
  induction ts with
  | nil =>
    intro s fs fs' outs
    simp only [allDocs, Prod.mk.injEq, Except.ok.injEq]
    constructor
    · rintro ⟨rfl, rfl⟩; exact .nil _ _
    · intro h; cases h; exact ⟨rfl, rfl⟩
  | cons t ts ih =>
    intro s fs fs' outs
    constructor
    · intro h
      unfold allDocs at h
      split at h
      · simp at h
      · next s1 fs1 a ha =>
        split at h
        · simp at h
        · next fs2 b hb =>
          simp only [Prod.mk.injEq, Except.ok.injEq] at h
          obtain ⟨rfl, rfl⟩ := h
          exact .cons _ _ _ _ _ _ _ _ _ ((oneDoc_ok _ _ _ _ _ _ _ _ _ _ _).1 ha) ((ih _ _ _ _).1 hb)
    · intro h
      cases h with
      | cons _ s1 _ fs1 _ _ _ a b h hr =>
        unfold allDocs
        rw [(oneDoc_ok _ _ _ _ _ _ _ _ _ _ _).2 h]
        simp only
        rw [(ih _ _ _ _).2 hr]

/-- **C67**: `spiff merge` ends normally with the output `out` exactly if all arguments can be read, all stubs and documents can be processed, and `out`
consists of the texts of all documents of the template in their order. -/
theorem merge_ok_iff (L : CmdLib E S) (w : Surroundings) (j : Job) (stdin : Bool) (given : List (Node E)) (out : Bytes) (fs : FileSys) :
    mergeCmd L w j stdin given = ⟨out, fs, none⟩ ↔ ∃ i s prepared outs, readInputs L w j stdin given = .ok i ∧
      StubsPrepared L j.opts.isPartial (L.start i.ctx) i.stubs s prepared ∧
      DocsShown L w j i.features prepared (L.reset s) w.fs i.docs fs outs ∧ Printed j.json outs out := by
  unfold mergeCmd
  rcases hi : readInputs L w j stdin given with x | i
  · simp
  · rcases hp : prepareAll L j.opts.isPartial (L.start i.ctx) i.stubs with ⟨s, _ | prepared⟩
    · simp only [hp, RunEnd.mk.injEq, reduceCtorEq, and_false, false_iff]
      rintro ⟨i', s', p', o', h1, h2, -⟩
      cases h1; rw [← prepared_iff, hp] at h2; cases h2
    · simp only [hp]
      rcases hd : allDocs L w j i.features prepared (L.reset s) w.fs i.docs with ⟨fs1, x | bs⟩
      · simp only [conclude, RunEnd.mk.injEq, reduceCtorEq, and_false, false_iff]
        rintro ⟨i', s', p', o', h1, h2, h3, -⟩
        cases h1; rw [← prepared_iff, hp] at h2; cases h2
        rw [← allDocs_ok, hd] at h3; cases h3
      · simp only [conclude, RunEnd.mk.injEq, and_true]
        constructor
        · rintro ⟨h1, rfl⟩
          exact ⟨i, s, prepared, bs, rfl, (prepared_iff _ _ _ _ _ _).1 hp, (allDocs_ok _ _ _ _ _ _ _ _ _ _).1 hd, (printed_iff _ _ _).1 h1⟩
        · rintro ⟨i', s', p', o', h1, h2, h3, h4⟩
          cases h1; rw [← prepared_iff, hp] at h2; cases h2
          rw [← allDocs_ok, hd] at h3; cases h3
          exact ⟨(printed_iff _ _ _).2 h4, rfl⟩

/-- **C67**: what a normal run reads and prints. -/
theorem merge_output (L : CmdLib E S) (w : Surroundings) (j : Job) (given : List (Node E)) (out : Bytes) (fs : FileSys)
    (h : mergeCmd L w j false given = ⟨out, fs, none⟩) : ∃ i s prepared outs, InputsRead L w j given i ∧
      StubsPrepared L j.opts.isPartial (L.start i.ctx) i.stubs s prepared ∧
      DocsShown L w j i.features prepared (L.reset s) w.fs i.docs fs outs ∧ Printed j.json outs out := by
  obtain ⟨i, s, prepared, outs, h1, h2⟩ := (merge_ok_iff _ _ _ _ _ _ _).1 h
  exact ⟨i, s, prepared, outs, inputs_read _ _ _ _ _ h1, h2⟩

end Spiff
