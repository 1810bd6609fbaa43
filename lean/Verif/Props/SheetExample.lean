import Verif.Props.SheetEnd
import Verif.Props.ReorderMerge
namespace Spiff
open Spec

/-- a path leads to a cell of the sheet -/
theorem cells_descend {C : Blocks → Cell → Prop} (p : List String) : ∀ (x : Sheet) {around around' : Blocks} {c : Cell} {q : List String}, AllCells C around x → descend p around x = .place around' c q →
    C around' c := by
  have hget : ∀ (fs : List (String × Sheet)) {around : Blocks} {k : String} {x : Sheet}, AllCellsM C around fs → mget fs k = some x → AllCells C around x := by
    intro fs
    induction fs with
    | nil => intro around k x _ h; cases h
    | cons e r ih =>
      intro around k x h hk
      obtain ⟨k', y⟩ := e
      rw [AllCellsM] at h
      rw [mget] at hk
      split at hk
      · cases hk; exact h.1
      · exact ih h.2 hk
  induction p with
  | nil =>
    intro x around around' c q h hd
    cases x with
    | cell c' => rw [descend] at hd; cases hd; exact h
    | block fs s => rw [descend] at hd; cases hd
  | cons k p ih =>
    intro x around around' c q h hd
    cases x with
    | cell c' => rw [descend] at hd; cases hd; exact h
    | block fs s =>
      rw [descend] at hd
      rw [AllCells] at h
      cases hk : mget fs k with
      | none => rw [hk] at hd; cases hd
      | some x => rw [hk] at hd; exact ih x (hget fs h hk) hd

/-! ### a sheet with builtin functions -/

/-- builtin functions that compute their result from the arguments alone -/
def sheetFns : Fns := fun name => if name ∈ ["length", "contains", "index", "lastindex", "join", "reverse", "uniq", "compact", "sort"] then
    (orderFn name "").map (fun f vs => match f vs with
      | .ok v => if v.isExpr then none else some v
      | _ => none)
  else none

theorem sheetFns_src (src : String) : ∀ name ∈ ["length", "contains", "index", "lastindex", "join", "reverse", "uniq", "compact", "sort"], orderFn name src = orderFn name "" := by
  intro name h
  simp only [List.mem_cons, List.not_mem_nil, or_false] at h
  rcases h with rfl | rfl | rfl | rfl | rfl | rfl | rfl | rfl | rfl <;> rfl

/-- The hypothesis about functions is met. -/
theorem sheetFns_ok : FnsOk orderLib sheetFns := by
  intro name f h
  unfold sheetFns at h
  split at h
  · rename_i hn
    cases ho : orderFn name "" with
    | none => rw [ho] at h; cases h
    | some g =>
      rw [ho] at h
      cases h
      refine ⟨fun vs src => match orderFn name src with
        | some f => withInfo (f vs)
        | none => .panic, by simp only [orderLib, ho, Option.isSome_some, if_true]; rfl, ?_⟩
      intro vs v hv
      simp only at hv
      cases hg : g vs with
      | ok v' =>
        rw [hg] at hv
        simp only at hv
        by_cases hx : v'.isExpr = true
        · simp [hx] at hv
        · rw [if_neg hx] at hv
          cases hv
          refine ⟨by simpa using hx, fun src => ?_⟩
          simp only [sheetFns_src src name hn, ho, hg]
          rfl
      | _ => rw [hg] at hv; cases hv
  · cases h

/-! ### an example -/

def exName : Ex := Ex.bin .concat (Ex.ref ["host"]) (Ex.lit (.str ".org"))
def exPort : Ex := Ex.bin .add (Ex.ref ["", "port"]) (Ex.ref ["offset"])
def exOffset : Ex := Ex.or (Ex.ref ["limits", "low"]) (Ex.bin .mul (Ex.ref ["base"]) (Ex.lit (.int 10)))
def exTotal : Ex := Ex.cond (Ex.bin (.cmp .gt) (Ex.ref ["web", "port"]) (Ex.ref ["port"])) (Ex.call "length" [Ex.ref ["web", "name"]]) (Ex.lit (.int 0))
def exLoop : Ex := Ex.bin .add (Ex.ref ["ring", "next"]) (Ex.lit (.int 1))
def exNext : Ex := Ex.bin .sub (Ex.ref ["loop"]) (Ex.ref ["total"])

/-- a parser for the texts of the example -/
def sheetBase : Lang Ex := { orderBase with
  parse := fun s _ _ => mget [(" host \".org\" ", exName), (" .port + offset ", exPort), (" limits.low || base * 10 ", exOffset),
    (" web.port > port ? length( web.name ) :0 ", exTotal), (" ring.next + 1 ", exLoop), (" loop - total ", exNext)] s }

def sheetLang : Lang Ex := exLang orderLib orderRefs sheetBase

def dataCell (v : Val Ex) : Sheet := .cell (.data (.mk v "f" {}))
def textCell (t : String) : Sheet := .cell (.formula t "f" none)

/-- the field `web` -/
def sheetWeb : List (String × Sheet) :=
  [("name", textCell "(( host \".org\" ))"), ("port", textCell "(( .port + offset ))"), ("offset", textCell "(( limits.low || base * 10 ))"), ("base", dataCell (.int 8))]
def sheetRing : List (String × Sheet) := [("next", textCell "(( loop - total ))")]
def sheetTop : List (String × Sheet) :=
  [("total", textCell "(( web.port > port ? length( web.name ) :0 ))"), ("host", dataCell (.str "abc")), ("port", dataCell (.int 8000)), ("limits", .block [("high", dataCell (.int 9))] "f"),
   ("web", .block sheetWeb "f"), ("loop", textCell "(( ring.next + 1 ))"), ("ring", .block sheetRing "f")]
/-- `{total: (( web.port > port ? length( web.name ) :0 )), host: abc, port: 8000, limits: {high: 9}, web: {name: (( host ".org" )), port: (( .port + offset )),
offset: (( limits.low || base * 10 )), base: 8}, loop: (( ring.next + 1 )), ring: {next: (( loop - total ))}}` -/
def sheetDoc : Sheet := .block sheetTop "f"

theorem sheet_parses {t : String} {e : Ex} (sub : List Char) (h : decide (embeddedDynaml (fun s => s) false t.toList = some sub) = true) (h' : decide (sheetBase.parse (String.ofList sub) [] [] = some e) = true) :
    ParsesTo sheetLang t e := ⟨sub, of_decide_eq_true h, fun _ _ => of_decide_eq_true h'⟩

theorem ref_means {L : Lang Ex} {fns : Fns} {k : Nat} {around : Blocks} {absent : List String → Prop} {p : List String} {w : Val Ex} (a : Blocks) (c : Cell) (q : List String) (u : Val Ex)
    (h1 : target around p = .place a c q) (h2 : ComputesIn L fns k a c u) (h3 : dataAt q u = some w) : Means fns (knownIn L fns k around) absent (Ex.ref p) w := .ref ⟨a, c, q, u, h1, h2, h3⟩
theorem ref_data {L : Lang Ex} {fns : Fns} {k : Nat} {around : Blocks} {absent : List String → Prop} {p : List String} {w : Val Ex} (a : Blocks) (d : Node Ex) (q : List String)
    (h1 : target around p = .place a (.data d) q) (h3 : dataAt q d.val = some w) : Means fns (knownIn L fns k around) absent (Ex.ref p) w :=
  .ref ⟨a, .data d, q, d.val, h1, computesIn_data.2 rfl, h3⟩

theorem web_offset : ComputesIn sheetLang sheetFns 1 [sheetWeb, sheetTop] (.formula "(( limits.low || base * 10 ))" "f" none) (.int 80) :=
  ⟨_, rfl, rfl, exOffset, sheet_parses " limits.low || base * 10 ".toList (by decide +kernel) (by decide +kernel),
    .second rfl (.bin (ref_data [sheetWeb, sheetTop] (.mk (.int 8) "f" {}) [] rfl rfl) (.lit _) (.mul 8 10))⟩
theorem web_port : ComputesIn sheetLang sheetFns 2 [sheetWeb, sheetTop] (.formula "(( .port + offset ))" "f" none) (.int 8080) :=
  ⟨_, rfl, rfl, exPort, sheet_parses " .port + offset ".toList (by decide +kernel) (by decide +kernel),
    .bin (ref_data [sheetTop] (.mk (.int 8000) "f" {}) [] rfl rfl) (ref_means _ _ [] _ rfl web_offset rfl) (.add 8000 80)⟩
theorem web_name : ComputesIn sheetLang sheetFns 2 [sheetWeb, sheetTop] (.formula "(( host \".org\" ))" "f" none) (.str "abc.org") :=
  ⟨_, rfl, ⟨rfl, by decide +kernel⟩, exName, sheet_parses " host \".org\" ".toList (by decide +kernel) (by decide +kernel),
    .bin (ref_data [sheetTop] (.mk (.str "abc") "f" {}) [] rfl rfl) (.lit _) (.concat "abc" ".org")⟩
theorem sheet_total : ComputesIn sheetLang sheetFns 3 [sheetTop] (.formula "(( web.port > port ? length( web.name ) :0 ))" "f" none) (.int 7) := by
  refine ⟨_, rfl, rfl, exTotal, sheet_parses " web.port > port ? length( web.name ) :0 ".toList (by decide +kernel) (by decide +kernel), ?_⟩
  refine .yes (.bin (ref_means _ _ [] _ rfl web_port rfl) (ref_data [sheetTop] (.mk (.int 8000) "f" {}) [] rfl rfl) (.gt 8080 8000)) (by decide) ?_
  refine .call (vs := [.str "abc.org"]) (f := fun vs => match funcLength vs with
      | .ok v => if v.isExpr then none else some v
      | _ => none) rfl rfl (fun i h h' => ?_) rfl
  obtain rfl : i = 0 := by simpa using h
  exact ref_means _ _ [] _ rfl web_name rfl

/-- the two circular cells -/
def sheetCycle (around : Blocks) (c : Cell) : Prop :=
  (around = [sheetTop] ∧ c = .formula "(( ring.next + 1 ))" "f" none) ∨ (around = [sheetRing, sheetTop] ∧ c = .formula "(( loop - total ))" "f" none)

theorem sheet_cycle : Cycle sheetLang sheetFns sheetCycle := by
  rintro around c (⟨rfl, rfl⟩ | ⟨rfl, rfl⟩)
  · exact ⟨_, _, _, exLoop, rfl, sheet_parses " ring.next + 1 ".toList (by decide +kernel) (by decide +kernel),
      .left (by decide) (.ref ⟨[sheetRing, sheetTop], _, [], rfl, .inr ⟨rfl, rfl⟩⟩) (.lit _)⟩
  · exact ⟨_, _, _, exNext, rfl, sheet_parses " loop - total ".toList (by decide +kernel) (by decide +kernel),
      .left (by decide) (.ref ⟨[sheetTop], _, [], rfl, .inl ⟨rfl, rfl⟩⟩) (.ref ⟨_, _, [], _, rfl, ⟨3, sheet_total⟩, rfl⟩)⟩

theorem sheet_tidy : Tidy sheetLang sheetDoc := by
  have hk : ∀ k : String, k ≠ "<<" → k ≠ MERGEKEY → keyTag k = none → PlainKey sheetLang k := fun k h1 h2 h3 => ⟨h1, h2, h3, rfl⟩
  simp only [sheetDoc, sheetTop, sheetWeb, sheetRing, Tidy, TidyM, dataCell, textCell, Plain, PlainV, and_true, true_and]
  refine ⟨by simp [MapOK, mkeys], ?_⟩
  repeat' constructor
  all_goals first | decide +kernel | (intro o h; cases h)

theorem sheet_cells : AllCells (fun around c => (∃ v, Computes sheetLang sheetFns around c v) ∨ Circular sheetLang sheetFns around c) [] sheetDoc := by
  have hd : ∀ around d, (∃ v, Computes sheetLang sheetFns around (.data d) v) ∨ Circular sheetLang sheetFns around (.data d) := fun _ d => .inl ⟨d.val, computes_data.2 rfl⟩
  refine ⟨.inl ⟨_, 3, sheet_total⟩, hd _ _, hd _ _, ⟨hd _ _, trivial⟩, ⟨.inl ⟨_, 2, web_name⟩, .inl ⟨_, 2, web_port⟩, .inl ⟨_, 1, web_offset⟩, hd _ _, trivial⟩,
    .inr ⟨sheetCycle, sheet_cycle, .inl ⟨rfl, rfl⟩⟩, ⟨.inr ⟨sheetCycle, sheet_cycle, .inr ⟨rfl, rfl⟩⟩, trivial⟩, trivial⟩

theorem sheet_unstubbed : AllCells (fun _ c => ∀ t s o, c ≠ .formula t s (some o)) [] sheetDoc := by
  refine ⟨?_, ?_, ?_, ⟨?_, trivial⟩, ⟨?_, ?_, ?_, ?_, trivial⟩, ?_, ⟨?_, trivial⟩, trivial⟩ <;> (intro t s o h; cases h)

/-- The hypotheses of `sheet_processed` are met by a document with references in both directions, a default and two circular fields. -/
example : ∃ N, ∀ fuel ≥ N, ∀ passes ≥ N, ∃ r report, flowDoc sheetLang fuel passes {} sheetDoc.source true = .ok (r, report) ∧ Filled (CellResult sheetLang sheetFns) [] sheetDoc r ∧
    ∃ u ∈ report, u.context = ["ring", "next"] := by
  obtain ⟨N, h⟩ := sheet_processed (X := orderLib) (R := orderRefs) (base := sheetBase) rfl rfl sheetFns_ok sheetTop "f" sheet_tidy sheet_unstubbed sheet_cells
  refine ⟨N, fun fuel hf passes hp => ?_⟩
  obtain ⟨r, report, h1, h2, h3⟩ := h fuel hf passes hp {} true rfl rfl rfl rfl
  exact ⟨r, report, h1, h2, (h3 _).2 ⟨_, _, rfl, sheetCycle, sheet_cycle, .inr ⟨rfl, rfl⟩⟩⟩

/-- the number at a path of the result, and the paths of the report -/
def sheetRun (p : List String) : Option (Val Ex × List (List String)) := match flowDoc sheetLang 20 20 {} sheetDoc.source true with
  | .ok (r, report) => (dataAt p r.val).map (fun v => (v, report.map (·.context)))
  | _ => none
def intIs (i : Int) : Option (Val Ex × List (List String)) → Bool
  | some (.int j, ps) => decide (i = j) && decide (ps = [["loop"], ["ring", "next"]])
  | _ => false

/-- the model computes it -/
example : intIs 7 (sheetRun ["total"]) = true ∧ intIs 8080 (sheetRun ["web", "port"]) = true ∧ intIs 80 (sheetRun ["web", "offset"]) = true := by decide +kernel

/-! ### the example with a stub -/

/-- `{port: 9000, web: {offset: 5}}` -/
def sheetStub : Node Ex := .mk (.map [("port", .mk (.int 9000) "g" {}), ("web", .mk (.map [("offset", .mk (.int 5) "g" {})]) "g" {})]) "g" {}
def stubWeb : List (String × Sheet) := mergedM [sheetStub] ["web"] sheetWeb
def stubRing : List (String × Sheet) := mergedM [sheetStub] ["ring"] sheetRing
def stubTop : List (String × Sheet) := mergedM [sheetStub] [] sheetTop

theorem stub_offset : ComputesIn sheetLang sheetFns 1 [stubWeb, stubTop] (.formula "(( limits.low || base * 10 ))" "f" (some (.mk (.int 5) "g" {}))) (.int 5) :=
  ⟨.int 80, rfl, rfl, exOffset, sheet_parses " limits.low || base * 10 ".toList (by decide +kernel) (by decide +kernel),
    .second rfl (.bin (ref_data [stubWeb, stubTop] (.mk (.int 8) "f" {}) [] rfl rfl) (.lit _) (.mul 8 10))⟩
theorem stub_port : ComputesIn sheetLang sheetFns 2 [stubWeb, stubTop] (.formula "(( .port + offset ))" "f" none) (.int 9005) :=
  ⟨_, rfl, rfl, exPort, sheet_parses " .port + offset ".toList (by decide +kernel) (by decide +kernel),
    .bin (ref_data [stubTop] (.mk (.int 9000) "g" {}) [] rfl rfl) (ref_means _ _ [] _ rfl stub_offset rfl) (.add 9000 5)⟩
theorem stub_name : ComputesIn sheetLang sheetFns 2 [stubWeb, stubTop] (.formula "(( host \".org\" ))" "f" none) (.str "abc.org") :=
  ⟨_, rfl, ⟨rfl, by decide +kernel⟩, exName, sheet_parses " host \".org\" ".toList (by decide +kernel) (by decide +kernel),
    .bin (ref_data [stubTop] (.mk (.str "abc") "f" {}) [] rfl rfl) (.lit _) (.concat "abc" ".org")⟩
theorem stub_total : ComputesIn sheetLang sheetFns 3 [stubTop] (.formula "(( web.port > port ? length( web.name ) :0 ))" "f" none) (.int 7) := by
  refine ⟨_, rfl, rfl, exTotal, sheet_parses " web.port > port ? length( web.name ) :0 ".toList (by decide +kernel) (by decide +kernel), ?_⟩
  refine .yes (.bin (ref_means _ _ [] _ rfl stub_port rfl) (ref_data [stubTop] (.mk (.int 9000) "g" {}) [] rfl rfl) (.gt 9005 9000)) (by decide) ?_
  refine .call (vs := [.str "abc.org"]) (f := fun vs => match funcLength vs with
      | .ok v => if v.isExpr then none else some v
      | _ => none) rfl rfl (fun i h h' => ?_) rfl
  obtain rfl : i = 0 := by simpa using h
  exact ref_means _ _ [] _ rfl stub_name rfl

/-- the two circular cells -/
def stubCycle (around : Blocks) (c : Cell) : Prop :=
  (around = [stubTop] ∧ c = .formula "(( ring.next + 1 ))" "f" none) ∨ (around = [stubRing, stubTop] ∧ c = .formula "(( loop - total ))" "f" none)

theorem stub_cycle : Cycle sheetLang sheetFns stubCycle := by
  rintro around c (⟨rfl, rfl⟩ | ⟨rfl, rfl⟩)
  · exact ⟨_, _, _, exLoop, rfl, sheet_parses " ring.next + 1 ".toList (by decide +kernel) (by decide +kernel),
      .left (by decide) (.ref ⟨[stubRing, stubTop], _, [], rfl, .inr ⟨rfl, rfl⟩⟩) (.lit _)⟩
  · exact ⟨_, _, _, exNext, rfl, sheet_parses " loop - total ".toList (by decide +kernel) (by decide +kernel),
      .left (by decide) (.ref ⟨[stubTop], _, [], rfl, .inl ⟨rfl, rfl⟩⟩) (.ref ⟨_, _, [], _, rfl, ⟨3, stub_total⟩, rfl⟩)⟩

theorem stub_cells : AllCells (fun around c => (∃ v, Computes sheetLang sheetFns around c v) ∨ Circular sheetLang sheetFns around c) [] (sheetDoc.merged [sheetStub] []) := by
  have hd : ∀ around d, (∃ v, Computes sheetLang sheetFns around (.data d) v) ∨ Circular sheetLang sheetFns around (.data d) := fun _ d => .inl ⟨d.val, computes_data.2 rfl⟩
  exact ⟨.inl ⟨_, 3, stub_total⟩, hd _ _, hd _ _, ⟨hd _ _, trivial⟩, ⟨.inl ⟨_, 2, stub_name⟩, .inl ⟨_, 2, stub_port⟩, .inl ⟨_, 1, stub_offset⟩, hd _ _, trivial⟩,
    .inr ⟨stubCycle, stub_cycle, .inl ⟨rfl, rfl⟩⟩, ⟨.inr ⟨stubCycle, stub_cycle, .inr ⟨rfl, rfl⟩⟩, trivial⟩, trivial⟩

theorem stub_plain : ∀ s ∈ [sheetStub], Plain sheetLang s := by
  have hk : ∀ k : String, k ≠ "<<" → k ≠ MERGEKEY → keyTag k = none → PlainKey sheetLang k := fun k h1 h2 h3 => ⟨h1, h2, h3, rfl⟩
  intro s hs
  obtain rfl : s = sheetStub := by simpa using hs
  simp only [sheetStub, Plain, PlainV, PlainM, and_true, true_and]
  repeat' constructor
  all_goals decide +kernel

theorem stub_fit : FitsAll [sheetStub] [] sheetDoc := by
  simp only [sheetDoc, sheetTop, sheetWeb, sheetRing, FitsAll, FitsAllM, dataCell, textCell, List.mem_singleton, forall_eq, exists_eq_left, List.nil_append, List.cons_append]
  repeat' constructor
  all_goals simp [sheetStub, Fits, nodeAt, mget, isScalar, Node.val]

/-- The hypotheses of `sheet_merged` are met: a stub replaces data and an expression, other expressions see the replaced values. -/
example : ∃ N, ∀ fuel ≥ N, ∀ passes ≥ N, ∃ r report, flowDoc sheetLang fuel passes { stubs := [sheetStub] } sheetDoc.source true = .ok (r, report) ∧
    Filled (CellResult sheetLang sheetFns) [] (sheetDoc.merged [sheetStub] []) r ∧ ∃ u ∈ report, u.context = ["ring", "next"] := by
  obtain ⟨N, h⟩ := sheet_merged (X := orderLib) (R := orderRefs) (base := sheetBase) rfl rfl sheetFns_ok [sheetStub] stub_plain sheetTop "f" sheet_tidy stub_fit stub_cells
  refine ⟨N, fun fuel hf passes hp => ?_⟩
  obtain ⟨r, report, h1, h2, h3⟩ := h fuel hf passes hp { stubs := [sheetStub] } true rfl rfl rfl rfl rfl
  exact ⟨r, report, h1, h2, (h3 _).2 ⟨_, _, rfl, stubCycle, stub_cycle, .inr ⟨rfl, rfl⟩⟩⟩

def stubRun (stub : Node Ex) (p : List String) : Option (Val Ex × List (List String)) := match flowDoc sheetLang 20 20 { stubs := [stub] } sheetDoc.source true with
  | .ok (r, report) => (dataAt p r.val).map (fun v => (v, report.map (·.context)))
  | _ => none

/-- the model computes it -/
example : intIs 7 (stubRun sheetStub ["total"]) = true ∧ intIs 9005 (stubRun sheetStub ["web", "port"]) = true ∧ intIs 5 (stubRun sheetStub ["web", "offset"]) = true ∧
    intIs 9000 (stubRun sheetStub ["port"]) = true := by decide +kernel

/-- A value from a stub does not help a circular expression: the document is still reported as unresolved, in both fields. -/
example : intIs 7 (stubRun (.mk (.map [("loop", .mk (.int 1) "g" {})]) "g" {}) ["total"]) = true := by decide +kernel

/-! ### consequences -/

section
variable {X : EvLib} {R : RefLib Ex} {base : Lang Ex} {fns : Fns}

/-- **C94**: a document all of whose formulas have values is processed without a report. -/
theorem sheet_resolved (hX : X.ctl = false) (hR : R.ctl = false) (hf : FnsOk X fns) (fs : List (String × Sheet)) (s : String) (ht : Tidy (exLang X R base) (.block fs s))
    (hu : AllCells (fun _ c => ∀ t s o, c ≠ .formula t s (some o)) [] (.block fs s)) (hc : AllCells (fun around c => ∃ v, Computes (exLang X R base) fns around c v) [] (.block fs s)) :
    ∃ N, ∀ fuel ≥ N, ∀ passes ≥ N, ∀ (env : Env Ex) (so : Bool), env.stubs = [] → env.nomerge = false → env.outer = [] → env.scopes = [] →
      ∃ r, flowDoc (exLang X R base) fuel passes env (Sheet.block fs s).source so = .ok (r, []) ∧ Filled (CellResult (exLang X R base) fns) [] (.block fs s) r := by
  obtain ⟨N, h⟩ := sheet_processed hX hR hf fs s ht hu (cells_mono (fun _ _ h => .inl h) _ hc)
  refine ⟨N, fun fuel hfu passes hp env so h1 h2 h3 h4 => ?_⟩
  obtain ⟨r, report, g1, g2, g3⟩ := h fuel hfu passes hp env so h1 h2 h3 h4
  cases report with
  | nil => exact ⟨r, g1, g2⟩
  | cons u rest =>
    obtain ⟨around, c, g4, g5⟩ := (g3 u.context).1 ⟨u, by simp, rfl⟩
    obtain ⟨v, hv⟩ := cells_descend _ _ hc g4
    exact absurd g5 (circular_no_value hv)

end
end Spiff
