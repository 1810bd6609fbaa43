import Verif.Props.Meaning2
/-
C66: what is left of an expression without parentheses can be printed.
-/
namespace Spiff

theorem noGroupL_iff {l : List Syn} : noGroupL l = true ↔ ∀ a ∈ l, noGroup a = true := by
  induction l with
  | nil => simp [noGroupL]
  | cons a r ih => simp [noGroupL, ih]

theorem noGroup_args {op : SynOp} {l : List Syn} (h : noGroup (.node op l) = true) : ∀ a ∈ l, noGroup a = true := by
  rw [noGroup, Bool.and_eq_true] at h
  exact noGroupL_iff.mp h.2

theorem noGroup_node {op : SynOp} {l : List Syn} (ho : notGroup op = true) (h : ∀ a ∈ l, noGroup a = true) : noGroup (.node op l) = true := by
  rw [noGroup, ho, noGroupL_iff.mpr h]; rfl

/-- the kind of place where what is left can stand -/
def resKind : PKind → PKind
  | .operand o k => if k ≤ 6 then .operand o k else .expr
  | .elem => .elem
  | _ => .expr

section
variable {lib : PLib} {cx : PCtx}

theorem printable_expr {o : Bool} {k : Nat} {e : Syn} (h : Printable lib cx (.operand o k) e) (hk : k ≤ 8) : Printable lib cx .expr e := by
  have := printable_up h (8 - k) (by omega)
  rw [Nat.add_sub_cancel' hk] at this
  exact .expr this

theorem resKind_expr {o : Bool} {k : Nat} {e : Syn} (h : Printable lib cx (resKind (.operand o k)) e) : Printable lib cx .expr e := by
  simp only [resKind] at h
  split at h
  · exact printable_expr h (by omega)
  · exact h

theorem resKind_low {o : Bool} {k : Nat} {e : Syn} (hk : k ≤ 6) (h : Printable lib cx (resKind (.operand o k)) e) : Printable lib cx (.operand o k) e := by
  simp only [resKind] at h
  rwa [if_pos hk] at h

theorem resKind_of {o : Bool} {k : Nat} {e : Syn} (h : Printable lib cx (.operand o k) e) (hk : k ≤ 8) : Printable lib cx (resKind (.operand o k)) e := by
  simp only [resKind]
  split
  · exact h
  · exact printable_expr h hk

/-! ### translated arguments -/

theorem toExAll_forall2 {l : List Syn} {es : List Ex} : toExAll l = some es ↔ List.Forall₂ (fun s e => toEx s = some e) l es := by
  induction l generalizing es with
  | nil =>
    simp only [toExAll, Option.some.injEq]
    constructor
    · rintro rfl; exact .nil
    · intro h; cases h; rfl
  | cons a r ih =>
    rw [toExAll]
    constructor
    · intro h
      cases ha : toEx a with
      | none => rw [ha] at h; cases h
      | some x =>
        rw [ha] at h
        cases hr : toExAll r with
        | none => rw [hr] at h; cases h
        | some y => rw [hr] at h; cases h; exact .cons ha (ih.mp hr)
    · intro h
      cases h with
      | cons ha hr => rw [ha, ih.mpr hr]; rfl

theorem toEx_node {op : SynOp} {args : List Syn} {e : Ex} (h : toEx (.node op args) = some e) :
    ∃ es, List.Forall₂ (fun s e => toEx s = some e) args es ∧ exOp op es = some e := by
  rw [toEx] at h
  cases ha : toExAll args with
  | none => rw [ha] at h; cases h
  | some es => rw [ha] at h; exact ⟨es, toExAll_forall2.mp ha, h⟩

theorem toEx_of {op : SynOp} {args : List Syn} {es : List Ex} {e : Ex} (h : List.Forall₂ (fun s e => toEx s = some e) args es) (h' : exOp op es = some e) :
    toEx (.node op args) = some e := by
  rw [toEx, toExAll_forall2.mpr h]; exact h'

/-- what is left of `s` can be printed at the same place -/
def LeftPrintable (lib : PLib) (cx : PCtx) (X : EvLib) (b : Bind) (kind : PKind) (s : Syn) : Prop :=
  noGroup s = true → ∀ e, toEx s = some e → Ordinary e → ∀ r i, eval X e b false = .val (.expr r) i →
    ∃ s', toEx s' = some r ∧ Printable lib cx (resKind kind) s' ∧ noGroup s' = true

/-- the expression itself is left -/
theorem left_self {kind : PKind} {s : Syn} {e : Ex} (he : toEx s = some e) (hp : Printable lib cx (resKind kind) s) (hg : noGroup s = true)
    {r : Ex} (hr : r = e) : ∃ s', toEx s' = some r ∧ Printable lib cx (resKind kind) s' ∧ noGroup s' = true :=
  ⟨s, by rw [hr]; exact he, hp, hg⟩

theorem left_list {X : EvLib} {b : Bind} {l : List Syn} {es : List Ex} (hg : ∀ a ∈ l, noGroup a = true)
    (hes : List.Forall₂ (fun s e => toEx s = some e) l es) (ho : ∀ e ∈ es, Ordinary e) (hp : ∀ a ∈ l, Printable lib cx .elem a)
    (ih : ∀ a ∈ l, LeftPrintable lib cx X b .elem a) {rs : List Ex} (hl : Left (es.map (fun e => (e, eval X e b false))) rs) :
    ∃ l', List.Forall₂ (fun s e => toEx s = some e) l' rs ∧ (∀ a ∈ l', Printable lib cx .elem a) ∧ ∀ a ∈ l', noGroup a = true := by
  unfold Left at hl
  induction hes generalizing rs with
  | nil => cases hl; exact ⟨[], .nil, by simp, by simp⟩
  | @cons a e l es ha _ ihl =>
    rw [List.map_cons] at hl
    cases hl with
    | @cons _ r _ rs h1 h2 =>
      obtain ⟨l', q1, q2, q3⟩ := ihl (fun x hx => hg x (List.mem_cons_of_mem _ hx)) (fun x hx => ho x (List.mem_cons_of_mem _ hx))
        (fun x hx => hp x (List.mem_cons_of_mem _ hx)) (fun x hx => ih x (List.mem_cons_of_mem _ hx)) h2
      have : ∃ a', toEx a' = some r ∧ Printable lib cx .elem a' ∧ noGroup a' = true := by
        rcases h1 with rfl | ⟨i, hi⟩
        · exact ⟨a, ha, hp a List.mem_cons_self, hg a List.mem_cons_self⟩
        · exact ih a List.mem_cons_self (hg a List.mem_cons_self) e ha (ho e List.mem_cons_self) r i hi
      obtain ⟨a', p1, p2, p3⟩ := this
      exact ⟨a' :: l', .cons p1 q1, by simpa using ⟨p2, q2⟩, by simpa using ⟨p3, q3⟩⟩

theorem ordinary_bin_inv {o : BinOp} {a c : Ex} (h : Ordinary (Ex.bin o a c)) : Ordinary a ∧ Ordinary c := by
  cases h with
  | bin _ h1 h2 => exact ⟨h1, h2⟩

/-- an operator evaluating both operands -/
theorem left_bin {X : EvLib} {b : Bind} {op : SynOp} {o : BinOp} (hop : ∀ l, exOp op l = some (.node (.bin o) l)) (hng : notGroup op = true)
    {k l r : Nat} {t : Bool} (hk : k ≤ 6) (hl : l ≤ 6) (hr : r ≤ 6) (hi : Infix op k l r) {a c : Syn}
    (hc : ∀ c, op = .cmp c → c ∈ cmpOps) (pa : Printable lib cx (.operand false l) a) (pc : Printable lib cx (.operand t r) c)
    (iha : LeftPrintable lib cx X b (.operand false l) a) (ihc : LeftPrintable lib cx X b (.operand t r) c) :
    LeftPrintable lib cx X b (.operand t k) (.node op [a, c]) := by
  intro hg e he ho q i hq
  obtain ⟨es, h1, h2⟩ := toEx_node he
  cases h1 with
  | @cons _ ea _ _ ha h1 => cases h1 with
    | @cons _ ec _ _ hc' h1 => cases h1 with
      | nil =>
        rw [hop] at h2
        cases h2
        obtain ⟨oa, oc⟩ := ordinary_bin_inv ho
        simp only [eval, evalL, sem] at hq
        obtain ⟨x, y, rfl, hx, hy⟩ := binEv_left oa.noExpand oc.noExpand hq
        have ga : noGroup a = true := noGroup_args hg a (by simp)
        have gc : noGroup c = true := noGroup_args hg c (by simp)
        have k1 : ∃ a', toEx a' = some x ∧ Printable lib cx (.operand false l) a' ∧ noGroup a' = true := by
          rcases hx with rfl | ⟨j, hj⟩
          · exact ⟨a, ha, pa, ga⟩
          · obtain ⟨a', u1, u2, u3⟩ := iha ga _ ha oa _ _ hj
            exact ⟨a', u1, resKind_low hl u2, u3⟩
        have k2 : ∃ c', toEx c' = some y ∧ Printable lib cx (.operand t r) c' ∧ noGroup c' = true := by
          rcases hy with rfl | ⟨j, hj⟩
          · exact ⟨c, hc', pc, gc⟩
          · obtain ⟨c', u1, u2, u3⟩ := ihc gc _ hc' oc _ _ hj
            exact ⟨c', u1, resKind_low hr u2, u3⟩
        obtain ⟨a', u1, u2, u3⟩ := k1
        obtain ⟨c', w1, w2, w3⟩ := k2
        refine ⟨.node op [a', c'], toEx_of (.cons u1 (.cons w1 .nil)) (hop _), resKind_of (.infix hi hc u2 w2) (by omega), noGroup_node hng ?_⟩
        intro z hz
        rcases List.mem_cons.mp hz with rfl | hz
        · exact u3
        · rcases List.mem_cons.mp hz with rfl | hz
          · exact w3
          · cases hz

theorem ordinary_call {fn : String} {es : List Ex} (h : Ordinary (.node (callOp fn) es)) : callOp fn = .call fn ∧ ∀ a ∈ es, Ordinary a := by
  rcases callOp_cases fn with h1 | h1
  · rw [h1] at h
    cases h with
    | call h => exact ⟨h1, h⟩
  · exfalso
    simp only [List.mem_cons, List.not_mem_nil, or_false] at h1
    rcases h1 with h1 | h1 | h1 | h1 | h1 | h1 <;> (rw [h1] at h; cases h)

/-- C66: what is left of an expression without parentheses can be printed. -/
theorem left_printable {X : EvLib} (hX : X.Plain) {b : Bind} (hb : b.Clean) {kind : PKind} {s : Syn} (h : Printable lib cx kind s) :
    LeftPrintable lib cx X b kind s := by
  have selfCase : ∀ {kind : PKind} {s : Syn}, Printable lib cx (resKind kind) s →
      (∀ e, toEx s = some e → Ordinary e → ∀ r i, eval X e b false = .val (.expr r) i → r = e) → LeftPrintable lib cx X b kind s := by
    intro kind s hp hself hg e he ho r i hr
    exact left_self he hp hg (hself e he ho r i hr)
  have never : ∀ {kind : PKind} {s : Syn}, (∀ e, toEx s = some e → Ordinary e → ∀ r i, eval X e b false ≠ .val (.expr r) i) → LeftPrintable lib cx X b kind s := by
    intro kind s hn hg e he ho r i hr
    exact absurd hr (hn e he ho r i)
  have noEx : ∀ {kind : PKind} {op : SynOp} {l : List Syn}, (∀ es, exOp op es = none) → LeftPrintable lib cx X b kind (.node op l) := by
    intro kind op l hn hg e he
    obtain ⟨es, _, h2⟩ := toEx_node he
    rw [hn] at h2; cases h2
  induction h with
  | @up o k e h hk ih =>
    intro hg e he ho r i hr
    obtain ⟨s', h1, h2, h3⟩ := ih hg e he ho r i hr
    refine ⟨s', h1, ?_, h3⟩
    by_cases h6 : k + 1 ≤ 6
    · exact resKind_of (.up (resKind_low (by omega) h2) hk) (by omega)
    · simp only [resKind]
      rw [if_neg h6]
      exact resKind_expr h2
  | expr h ih =>
    intro hg e he ho r i hr
    obtain ⟨s', h1, h2, h3⟩ := ih hg e he ho r i hr
    exact ⟨s', h1, resKind_expr h2, h3⟩
  | elem h ih =>
    intro hg e he ho r i hr
    obtain ⟨s', h1, h2, h3⟩ := ih hg e he ho r i hr
    exact ⟨s', h1, .elem h2, h3⟩
  | expand h ih =>
    intro hg e he ho
    obtain ⟨es, _, h2⟩ := toEx_node he
    cases h2
    cases ho
  | named hn h ih => exact noEx (fun _ => rfl)
  | ref hk hP =>
    refine selfCase (resKind_of (.ref hk hP) (by omega)) ?_
    intro e he ho r i hr
    obtain ⟨es, h1, h2⟩ := toEx_node he
    cases h1
    cases h2
    rw [eval_ref] at hr
    exact refFind_left hr
  | absRef hk hP =>
    refine selfCase (resKind_of (.absRef hk hP) (by omega)) ?_
    intro e he ho r i hr
    obtain ⟨es, h1, h2⟩ := toEx_node he
    cases h1
    cases h2
    rw [eval_ref] at hr
    exact refFind_left hr
  | group h ih => intro hg; cases hg
  | @list l hl ih =>
    intro hg e he ho r i hr
    obtain ⟨es, h1, h2⟩ := toEx_node he
    cases h2
    cases ho with
    | list ho =>
    simp only [eval, sem] at hr
    rw [argEv_eq] at hr
    obtain ⟨rs, rfl, hrs⟩ := listEv_left (noExp_args ho (fun a ha => ordinary_eval hX (ho a ha) b hb)) hr
    obtain ⟨l', q1, q2, q3⟩ := left_list (noGroup_args hg) h1 ho hl ih hrs
    exact ⟨.node .list l', toEx_of q1 rfl, resKind_of (.list q2) (by omega), noGroup_node rfl q3⟩
  | map hk hv ihk ihv =>
    refine selfCase (resKind_of (.map hk hv) (by omega)) ?_
    intro e he ho r i hr
    obtain ⟨es, h1, h2⟩ := toEx_node he
    cases h2
    simp only [eval, sem] at hr
    exact mapEv_left hr
  | range ha hb' hd iha ihb =>
    refine selfCase (resKind_of (.range ha hb' hd) (by omega)) ?_
    intro e he ho r i hr
    obtain ⟨es, h1, h2⟩ := toEx_node he
    cases h1 with
    | cons _ h1 => cases h1 with
      | cons _ h1 => cases h1 with
        | nil =>
          cases h2
          simp only [eval, evalL, sem] at hr
          exact rangeEv_left hr
  | dyn ha hl hne hi iha ihl =>
    intro hg e he ho
    obtain ⟨es, _, h2⟩ := toEx_node he
    cases h2
    cases ho
  | @qual a P ha hne hP iha =>
    intro hg e he ho r i hr
    obtain ⟨es, h1, h2⟩ := toEx_node he
    cases h1 with
    | @cons _ ea _ _ hea h1 => cases h1 with
      | nil =>
        cases h2
        cases ho with
        | qual ho =>
        simp only [eval, evalL, sem] at hr
        rcases qualEv_left (ordinary_eval hX ho b hb).good hr with rfl | ⟨x, k, rfl, hk⟩
        · exact left_self he (resKind_of (.qual ha hne hP) (by omega)) hg rfl
        · obtain ⟨s', u1, u2, u3⟩ := iha (noGroup_args hg a (by simp)) _ hea ho _ _ hk
          exact ⟨.node (.qual P) [s'], toEx_of (.cons u1 .nil) rfl, resKind_of (.qual u2 hne hP) (by omega), noGroup_node rfl (by simpa using u3)⟩
  | @call curry f ns ps hf hn hp ihf ihn ihp =>
    intro hg e he ho r i hr
    obtain ⟨es, h1, h2⟩ := toEx_node he
    cases h1 with
    | @cons _ ef _ es hef h1 =>
      -- no named arguments
      have hns : ns = [] := by
        cases ns with
        | nil => rfl
        | cons a ns =>
          rw [List.cons_append] at h1
          cases h1 with
          | cons ha _ =>
            cases hn a List.mem_cons_self with
            | named _ _ => obtain ⟨_, _, h3⟩ := toEx_node ha; cases h3
      subst hns
      rw [List.nil_append] at h1 hg
      have : ∃ fn, ef = .node (.ref [fn]) [] ∧ curry = false ∧ callOf fn es = some e := by
        simp only [exOp] at h2
        split at h2
        · rename_i fn rest heq
          cases heq
          cases curry
          · exact ⟨fn, rfl, rfl, by simpa using h2⟩
          · simp at h2
        · cases h2
      obtain ⟨fn, rfl, rfl, h3⟩ := this
      unfold callOf at h3
      split at h3
      · cases h3
      rename_i hfn
      simp only [Option.some.injEq] at h3
      subst h3
      have h5 : ∀ l, callOf fn l = some (.node (callOp fn) l) := fun l => by unfold callOf; rw [if_neg hfn]
      obtain ⟨h6, oes⟩ := ordinary_call ho
      rw [h6] at hr
      simp only [eval, sem] at hr
      rw [argEv_eq] at hr
      obtain ⟨rs, rfl, hrs⟩ := callEv_left (noExp_args oes (fun a ha => ordinary_eval hX (oes a ha) b hb)) hr
      obtain ⟨l', q1, q2, q3⟩ := left_list (fun a ha => noGroup_args hg a (List.mem_cons_of_mem _ ha)) h1 oes hp ihp hrs
      have hp' := Printable.call (curry := false) (ns := []) hf (by simp) q2
      rw [List.nil_append] at hp'
      refine ⟨.node (.call false) (f :: l'), toEx_of (.cons hef q1) (by simp only [exOp, h6 ▸ h5 rs]; rfl), resKind_of hp' (by omega), noGroup_node rfl ?_⟩
      intro a ha
      rcases List.mem_cons.mp ha with rfl | ha
      · exact noGroup_args hg a (by simp)
      · exact q3 a ha
  | mapping hop ha hl iha ihl =>
    refine noEx (fun es => ?_)
    cases hop <;> rfl
  | sum ha hi hl iha ihi ihl => exact noEx (fun _ => rfl)
  | nil => 
    refine never (fun e he ho r i hr => ?_)
    obtain ⟨es, h1, h2⟩ := toEx_node he
    cases h1
    cases h2
    simp [eval, evalL, sem, litVal] at hr
  | undef =>
    refine never (fun e he ho r i hr => ?_)
    obtain ⟨es, h1, h2⟩ := toEx_node he
    cases h1
    cases h2
    simp [eval, evalL, sem, litVal] at hr
  | bool b' => 
    refine never (fun e he ho r i hr => ?_)
    obtain ⟨es, h1, h2⟩ := toEx_node he
    cases h1
    cases h2
    simp [eval, evalL, sem, litVal] at hr
  | int h => 
    refine never (fun e he ho r i hr => ?_)
    obtain ⟨es, h1, h2⟩ := toEx_node he
    cases h1
    cases h2
    simp [eval, evalL, sem, litVal] at hr
  | str h => 
    refine never (fun e he ho r i hr => ?_)
    obtain ⟨es, h1, h2⟩ := toEx_node he
    cases h1
    cases h2
    simp [eval, evalL, sem, litVal] at hr
  | auto => exact noEx (fun _ => rfl)
  | @not a h ih =>
    intro hg e he ho r i hr
    obtain ⟨es, h1, h2⟩ := toEx_node he
    cases h1 with
    | @cons _ ea _ _ hea h1 => cases h1 with
      | nil =>
        cases h2
        cases ho with
        | not ho =>
        simp only [eval, evalL, sem] at hr
        obtain ⟨x, rfl, k, hk⟩ := notEv_left ho.noExpand hr
        obtain ⟨s', u1, u2, u3⟩ := ih (noGroup_args hg a (by simp)) _ hea ho _ _ hk
        exact ⟨.node .not [s'], toEx_of (.cons u1 .nil) rfl, resKind_of (.not u2) (by omega), noGroup_node rfl (by simpa using u3)⟩
  | subst h ih => exact noEx (fun _ => rfl)
  | lam _ _ _ _ _ => exact noEx (fun _ => rfl)
  | lambda h ih => 
    intro hg e he ho r i hr
    cases h with
    | lam => obtain ⟨_, _, h3⟩ := toEx_node he; cases h3
  | lambdaRef h hl ih => exact noEx (fun _ => rfl)
  | @«infix» op o k l r a c hi hc pa pc iha ihc =>
    cases hi with
    | mul => exact left_bin (o := .mul) (fun _ => rfl) rfl (by omega) (by omega) (by omega) .mul hc pa pc iha ihc
    | div => exact left_bin (o := .div) (fun _ => rfl) rfl (by omega) (by omega) (by omega) .div hc pa pc iha ihc
    | mod => exact left_bin (o := .mod) (fun _ => rfl) rfl (by omega) (by omega) (by omega) .mod hc pa pc iha ihc
    | add => exact left_bin (o := .add) (fun _ => rfl) rfl (by omega) (by omega) (by omega) .add hc pa pc iha ihc
    | sub => exact left_bin (o := .sub) (fun _ => rfl) rfl (by omega) (by omega) (by omega) .sub hc pa pc iha ihc
    | concat => exact left_bin (o := .concat) (fun _ => rfl) rfl (by omega) (by omega) (by omega) .concat hc pa pc iha ihc
    | cmp t =>
      cases ht : cmpOf t with
      | none => exact noEx (fun es => by simp [exOp, ht])
      | some x => exact left_bin (o := .cmp x) (fun _ => by simp [exOp, ht]) rfl (by omega) (by omega) (by omega) (.cmp _) hc pa pc iha ihc
    | logOr =>
      refine selfCase (resKind_of (.infix .logOr hc pa pc) (by omega)) ?_
      intro e he ho r i hr
      obtain ⟨es, h1, h2⟩ := toEx_node he
      cases h1 with
      | cons _ h1 => cases h1 with
        | cons _ h1 => cases h1 with
          | nil => cases h2; simp only [eval, evalL, sem] at hr; exact logEv_left logOr_noexpr hr
    | logAnd =>
      refine selfCase (resKind_of (.infix .logAnd hc pa pc) (by omega)) ?_
      intro e he ho r i hr
      obtain ⟨es, h1, h2⟩ := toEx_node he
      cases h1 with
      | cons _ h1 => cases h1 with
        | cons _ h1 => cases h1 with
          | nil => cases h2; simp only [eval, evalL, sem] at hr; exact logEv_left logAnd_noexpr hr
    | or =>
      intro hg e he ho r i hr
      obtain ⟨es, h1, h2⟩ := toEx_node he
      cases h1 with
      | cons ha h1 => cases h1 with
        | cons hc' h1 => cases h1 with
          | nil =>
            cases h2
            cases ho with
            | or oa oc =>
            rw [eval_or] at hr
            rcases orEv_left (ordinary_eval hX oa b hb).good hr with ⟨rfl, _⟩ | ⟨_, j, hj⟩
            · exact left_self he (resKind_of (.infix .or hc pa pc) (by omega)) hg rfl
            · obtain ⟨s', u1, u2, u3⟩ := ihc (noGroup_args hg c (by simp)) _ hc' oc _ _ hj
              exact ⟨s', u1, resKind_expr u2, u3⟩
    | validOr =>
      intro hg e he ho
      obtain ⟨es, _, h2⟩ := toEx_node he
      cases h2
      cases ho
  | @cond c t f hc ht hf ihc iht ihf =>
    intro hg e he ho r i hr
    obtain ⟨es, h1, h2⟩ := toEx_node he
    cases h1 with
    | @cons _ ec _ _ hec h1 => cases h1 with
      | @cons _ et _ _ het h1 => cases h1 with
        | @cons _ ef _ _ hef h1 => cases h1 with
          | nil =>
            cases h2
            cases ho with
            | cond oc ot of =>
            simp only [eval, evalL, sem] at hr
            have gc := noGroup_args hg c (by simp)
            have gt := noGroup_args hg t (by simp)
            have gf := noGroup_args hg f (by simp)
            rcases condEv_left oc.noExpand hr with ⟨x, k, rfl, hk⟩ | ⟨v, k, q1, q2, q3, j, hj⟩ | ⟨v, k, q1, q2, q3, j, hj⟩
            · obtain ⟨s', u1, u2, u3⟩ := ihc gc _ hec oc _ _ hk
              exact ⟨.node .cond [s', t, f], toEx_of (.cons u1 (.cons het (.cons hef .nil))) rfl, resKind_of (.cond (resKind_low (by omega) u2) ht hf) (by omega),
                noGroup_node rfl (by simpa using ⟨u3, gt, gf⟩)⟩
            · exact iht gt _ het ot _ _ hj
            · exact ihf gf _ hef of _ _ hj
  | scope hk hv he ihk ihv ihe =>
    refine selfCase (.scope hk hv he) ?_
    intro e he ho r i hr
    obtain ⟨es, h1, h2⟩ := toEx_node he
    simp only [exOp, rotate] at h2
    cases hl : es.getLast? with
    | none => rw [hl] at h2; cases h2
    | some x =>
      rw [hl] at h2
      cases h2
      simp only [eval, evalL, sem] at hr
      exact scopeEv_left hr
  | merge hp hn =>
    refine never (fun e he ho r i hr => ?_)
    obtain ⟨es, h1, h2⟩ := toEx_node he
    cases h1
    cases h2
    rw [eval_merge] at hr
    exact mergeEv_noexpr hb _ _ _ hr
  | mergeRef hk hP hno ho =>
    refine never (fun e he ho r i hr => ?_)
    obtain ⟨es, h1, h2⟩ := toEx_node he
    cases h1
    cases h2
    rw [eval_merge] at hr
    exact mergeEv_noexpr hb _ _ _ hr

/-- C66: a partial evaluation of an expression without parentheses: what is left can be written and read again, and has the outcome of the
original expression in every later state of the document. -/
theorem partial_output_read {X : EvLib} (hX : X.Plain) {s : Syn} (hp : Printable lib cx .expr s) (hg : noGroup s = true) {e r : Ex} (hs : toEx s = some e)
    (he : Ordinary e) {b b' : Bind} (hb : b.Clean) (hl : Bind.Le X b b') {i : Info} (h : eval X e b false = .val (.expr r) i) :
    ∃ s1 s2 r2, toEx s1 = some r ∧ ReadAs lib cx (leftText lib s1) s2 ∧ toEx s2 = some r2 ∧
      (eval X e b' false = .crash ∨ Ev.Agree (eval X r2 b' false) (eval X e b' false)) := by
  obtain ⟨s1, h1, h2, -⟩ := left_printable hX hb hp hg e hs he r i h
  obtain ⟨s2, r2, h3, h4, h5⟩ := partial_output_equivalent hX he hb hl h h1 h2
  exact ⟨s1, s2, r2, h1, h3, h4, h5⟩

end

/-- the hypotheses are met by `y == 2 ? x + y :n` with unknown `x`: `x + y` is left -/
example : ∃ s e r, readEx "y == 2 ? x + y :n" = some e ∧ toEx s = some e ∧ Printable plainPLib emptyPCtx .expr s ∧ noGroup s = true ∧ Ordinary e ∧
    (eval plainEvLib e (twoRefs (.expr (Ex.ref ["z"]))) false).left? = some r ∧ (twoRefs (.expr (Ex.ref ["z"]))).Clean ∧
    Bind.Le plainEvLib (twoRefs (.expr (Ex.ref ["z"]))) (twoRefs (.int 5)) ∧ (eval plainEvLib r (twoRefs (.int 5)) false).Is (.int 7) := by
  refine ⟨.node .cond [.node (.cmp "==".toList) [refSyn "y", .node (.int 2) []], .node .add [refSyn "x", refSyn "y"], refSyn "n"], exampleEx,
    Ex.bin .add (Ex.ref ["x"]) (Ex.ref ["y"]), by decide +kernel, by decide +kernel, ?_, by decide +kernel, exampleEx_ordinary, by decide +kernel,
    twoRefs_clean _, twoRefs_le _ _, ⟨_, rfl, rfl, by simp⟩⟩
  have hx : Printable plainPLib emptyPCtx (.operand false 0) (refSyn "x") := printable_ref (by decide +kernel)
  have hy : Printable plainPLib emptyPCtx (.operand false 0) (refSyn "y") := printable_ref (by decide +kernel)
  have hn : Printable plainPLib emptyPCtx (.operand false 0) (refSyn "n") := printable_ref (by decide +kernel)
  have h2 : Printable plainPLib emptyPCtx (.operand false 1) (.node (.int 2) []) := .int (by omega)
  have h1 : Printable plainPLib emptyPCtx (.operand false 4) (.node (.cmp "==".toList) [refSyn "y", .node (.int 2) []]) :=
    .infix (.cmp _) (by intro c hc; cases hc; decide +kernel) (printable_up hy 4 (by omega)) (printable_up h2 2 (by omega))
  have h3 : Printable plainPLib emptyPCtx (.operand false 3) (.node .add [refSyn "x", refSyn "y"]) :=
    .infix .add (by intro c hc; cases hc) (printable_up hx 3 (by omega)) (printable_up hy 2 (by omega))
  exact .expr (printable_up (.cond (printable_up h1 2 (by omega)) (printable_expr h3 (by omega)) (printable_expr hn (by omega))) 1 (by omega))

end Spiff
