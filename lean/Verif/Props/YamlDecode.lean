import Verif.Spec.Yaml
import Verif.Lemmas.Maps
/-
C72: reading of YAML documents.
-/
namespace Spiff
open Spec

/-- source of events: the events of the parser, and the replayed events -/
abbrev YSrc := List YEvent × Option (List YEvent)

/-- a state of the reader -/
def mkY (c : YEvent) (src : YSrc) (A : List (String × List YEvent)) (T : List (List YEvent)) : YState :=
  { cur := c, input := src.1, replay := src.2, anchors := A, trackers := T }

def optL (l : List YEvent) : Option (List YEvent) := if l.isEmpty then none else some l

/-- the next event of a source -/
def popS : YSrc → Option (YEvent × YSrc)
  | (_, some []) => none
  | (i, some (e :: r)) => some (e, (i, optL r))
  | (e :: i, none) => some (e, (i, none))
  | ([], none) => none

theorem nextEvent_mkY {c e : YEvent} {src src' : YSrc} (A T) (hc : c ≠ .streamEnd) (h : popS src = some (e, src')) :
    nextEvent (mkY c src A T) = .ok (mkY e src' A (track e T)) := by
  obtain ⟨i, r⟩ := src
  unfold nextEvent
  rw [if_neg (show ¬ (mkY c (i, r) A T).cur = .streamEnd from hc)]
  rcases r with _ | r
  · rcases i with _ | ⟨e', i⟩
    · simp [popS] at h
    · simp only [popS, Option.some.injEq, Prod.mk.injEq] at h
      obtain ⟨rfl, rfl⟩ := h
      rfl
  · rcases r with _ | ⟨e', r⟩
    · simp [popS] at h
    · simp only [popS, Option.some.injEq, Prod.mk.injEq] at h
      obtain ⟨rfl, rfl⟩ := h
      rfl

/-- reading several events from a source -/
def Reads : YSrc → List YEvent → YSrc → Prop
  | s, [], s' => s = s'
  | s, e :: es, s' => ∃ s1, popS s = some (e, s1) ∧ Reads s1 es s'

theorem reads_append (a b : List YEvent) : ∀ s s', Reads s (a ++ b) s' ↔ ∃ m, Reads s a m ∧ Reads m b s' := by
  induction a with
  | nil => intro s s'; simp [Reads]
  | cons e r ih =>
    intro s s'
    simp only [List.cons_append, Reads, ih]
    constructor
    · rintro ⟨s1, h, m, h1, h2⟩; exact ⟨m, ⟨s1, h, h1⟩, h2⟩
    · rintro ⟨m, ⟨s1, h, h1⟩, h2⟩; exact ⟨s1, h, m, h1, h2⟩

theorem reads_replay (l : List YEvent) (x : YEvent) (i : List YEvent) : Reads (x :: i, optL l) (l ++ [x]) (i, none) := by
  induction l with
  | nil => exact ⟨_, rfl, rfl⟩
  | cons e r ih => exact ⟨_, rfl, ih⟩

/-- recording of several events -/
def trackAll (es : List YEvent) (T : List (List YEvent)) : List (List YEvent) := es.foldl (fun T e => track e T) T

theorem trackAll_append (a b T) : trackAll (a ++ b) T = trackAll b (trackAll a T) := List.foldl_append ..

/-- what is recorded of an event -/
def recd : YEvent → List YEvent
  | .alias _ => []
  | e => [e]

@[simp] theorem recd_scalar (a s) : recd (.scalar a s) = [.scalar a s] := rfl
@[simp] theorem recd_seqStart (a) : recd (.seqStart a) = [.seqStart a] := rfl
@[simp] theorem recd_mapStart (a) : recd (.mapStart a) = [.mapStart a] := rfl
@[simp] theorem recd_seqEnd : recd .seqEnd = [.seqEnd] := rfl
@[simp] theorem recd_mapEnd : recd .mapEnd = [.mapEnd] := rfl
@[simp] theorem recd_alias (a) : recd (.alias a) = [] := rfl

theorem track_cons (e : YEvent) (t T) : track e (t :: T) = (t ++ recd e) :: T := by cases e <;> simp [track, recd]

theorem trackAll_cons (es : List YEvent) : ∀ t T, trackAll es (t :: T) = (t ++ es.flatMap recd) :: T := by
  induction es with
  | nil => intro t T; simp [trackAll]
  | cons e r ih =>
    intro t T
    show trackAll r (track e (t :: T)) = _
    rw [track_cons, ih, List.flatMap_cons, List.append_assoc]

/-- the event begins a node -/
def Opens : YEvent → Prop
  | .scalar _ _ | .seqStart _ | .mapStart _ | .alias _ => True
  | _ => False

theorem events_cons (t : YTree) : ∃ c E, t.events = c :: E ∧ Opens c := by
  cases t <;> exact ⟨_, _, rfl, trivial⟩

/-! ### nodes without anchors and aliases -/

mutual
/-- nodes without anchors and aliases, with their data -/
inductive PureT (X : YLib) : YTree → Data → Prop
  | scalar (s : YScalar) : PureT X (.scalar "" s) (resolveInterface X s).2
  | seq (l vs) (h : PureL X l vs) : PureT X (.seq "" l) (.seq vs)
  | map (m d) (h : PureM X m [] d) : PureT X (.map "" m) (.dict d)
inductive PureL (X : YLib) : List YTree → List Data → Prop
  | nil : PureL X [] []
  | cons (t v r vs) (h : PureT X t v) (hr : PureL X r vs) : PureL X (t :: r) (v :: vs)
inductive PureM (X : YLib) : List (YTree × YTree) → List (Key × Data) → List (Key × Data) → Prop
  | nil (m) : PureM X [] m m
  | cons (k v r dk dv m m1 m2) (hk : PureT X k dk) (hv : PureT X v dv) (hm : assignKey m dk dv = .ok m1) (hr : PureM X r m1 m2) :
      PureM X ((k, v) :: r) m m2
end

/-- reading a node without anchors and aliases, from any source -/
def ReadA (X : YLib) (t : YTree) (v : Data) : Prop :=
  ∃ N, ∀ n, N ≤ n → ∀ src src' A T x c E, t.events = c :: E → Reads src (E ++ [x]) src' →
    yValue X n (mkY c src A T) = .ok (v, mkY x src' A (trackAll (E ++ [x]) T))

theorem opens_ne {c : YEvent} (h : Opens c) : c ≠ .streamEnd ∧ c ≠ .seqEnd ∧ c ≠ .mapEnd ∧ c ≠ .docEnd := by
  cases c <;> simp_all [Opens]

theorem ySeq_open (X : YLib) (n : Nat) (acc : List Data) (c : YEvent) (src A T) (h : Opens c) :
    ySeq X (n + 1) acc (mkY c src A T) = (yValue X n (mkY c src A T)).bind fun r => ySeq X n (acc ++ [r.1]) r.2 := by
  rw [ySeq]
  cases c <;> simp_all [Opens, mkY]

theorem yMap_open (X : YLib) (n : Nat) (acc : List (Key × Data)) (c : YEvent) (src A T) (h : Opens c) :
    yMap X (n + 1) acc (mkY c src A T) = (yValue X n (mkY c src A T)).bind fun k => (yValue X n k.2).bind fun v =>
      (assignKey acc k.1 v.1).bind fun m => yMap X n m v.2 := by
  rw [yMap]
  cases c <;> simp_all [Opens, mkY]

theorem ySeq_end (X : YLib) (n : Nat) (acc : List Data) (x : YEvent) (src src' A T) (h : popS src = some (x, src')) :
    ySeq X (n + 1) acc (mkY .seqEnd src A T) = .ok (.seq acc, mkY x src' A (track x T)) := by
  rw [ySeq]
  simp only [mkY]
  have := nextEvent_mkY A T (c := .seqEnd) (by simp) h
  simp only [mkY] at this
  simp [closeCollection, this, YRes.bind]

theorem yMap_end (X : YLib) (n : Nat) (acc : List (Key × Data)) (x : YEvent) (src src' A T) (h : popS src = some (x, src')) :
    yMap X (n + 1) acc (mkY .mapEnd src A T) = .ok (.dict acc, mkY x src' A (track x T)) := by
  rw [yMap]
  simp only [mkY]
  have := nextEvent_mkY A T (c := .mapEnd) (by simp) h
  simp only [mkY] at this
  simp [closeCollection, this, YRes.bind]

theorem readA_all (X : YLib) {t v} (h : PureT X t v) : ReadA X t v := by
  refine PureT.rec (motive_1 := fun t v _ => ReadA X t v)
    (motive_2 := fun l vs _ => ∃ N, ∀ n, N ≤ n → ∀ acc src src' A T x c E, eventsL l ++ [.seqEnd] = c :: E → Reads src (E ++ [x]) src' →
      ySeq X n acc (mkY c src A T) = .ok (.seq (acc ++ vs), mkY x src' A (trackAll (E ++ [x]) T)))
    (motive_3 := fun l m m2 _ => ∃ N, ∀ n, N ≤ n → ∀ src src' A T x c E, eventsM l ++ [.mapEnd] = c :: E → Reads src (E ++ [x]) src' →
      yMap X n m (mkY c src A T) = .ok (.dict m2, mkY x src' A (trackAll (E ++ [x]) T)))
    ?_ ?_ ?_ ?_ ?_ ?_ ?_ h
  · intro s
    refine ⟨1, fun n hn src src' A T x c E he hr => ?_⟩
    obtain ⟨n, rfl⟩ : ∃ k, n = k + 1 := ⟨n - 1, by omega⟩
    simp only [YTree.events, List.cons.injEq] at he
    obtain ⟨rfl, rfl⟩ := he
    obtain ⟨s1, hp, rfl⟩ := hr
    rw [yValue]
    have := nextEvent_mkY A T (c := .scalar "" s) (by simp) hp
    simp only [mkY] at this ⊢
    simp [beginAnchor, this, YRes.bind, endAnchor, trackAll]
  · rintro l vs _ ⟨N, ih⟩
    refine ⟨N + 1, fun n hn src src' A T x c E he hr => ?_⟩
    obtain ⟨n, rfl⟩ : ∃ k, n = k + 1 := ⟨n - 1, by omega⟩
    simp only [YTree.events, List.cons.injEq] at he
    obtain ⟨rfl, rfl⟩ := he
    obtain ⟨c1, E1, hE⟩ : ∃ c1 E1, eventsL l ++ [YEvent.seqEnd] = c1 :: E1 := by
      cases hl : eventsL l ++ [YEvent.seqEnd] with
      | nil => simp at hl
      | cons a b => exact ⟨a, b, rfl⟩
    rw [hE] at hr
    obtain ⟨s1, hp, hr⟩ := hr
    have := nextEvent_mkY A T (c := .seqStart "") (by simp) hp
    have h2 := ih n (by omega) [] s1 src' A (track c1 T) x c1 E1 hE hr
    rw [yValue, hE]
    simp only [mkY] at this h2 ⊢
    simp [beginAnchor, this, YRes.bind, endAnchor, trackAll, h2]
  · rintro l d _ ⟨N, ih⟩
    refine ⟨N + 1, fun n hn src src' A T x c E he hr => ?_⟩
    obtain ⟨n, rfl⟩ : ∃ k, n = k + 1 := ⟨n - 1, by omega⟩
    simp only [YTree.events, List.cons.injEq] at he
    obtain ⟨rfl, rfl⟩ := he
    obtain ⟨c1, E1, hE⟩ : ∃ c1 E1, eventsM l ++ [YEvent.mapEnd] = c1 :: E1 := by
      cases hl : eventsM l ++ [YEvent.mapEnd] with
      | nil => simp at hl
      | cons a b => exact ⟨a, b, rfl⟩
    rw [hE] at hr
    obtain ⟨s1, hp, hr⟩ := hr
    have := nextEvent_mkY A T (c := .mapStart "") (by simp) hp
    have h2 := ih n (by omega) s1 src' A (track c1 T) x c1 E1 hE hr
    rw [yValue, hE]
    simp only [mkY] at this h2 ⊢
    simp [beginAnchor, this, YRes.bind, endAnchor, trackAll, h2]
  · refine ⟨1, fun n hn acc src src' A T x c E he hr => ?_⟩
    obtain ⟨n, rfl⟩ : ∃ k, n = k + 1 := ⟨n - 1, by omega⟩
    simp only [eventsL, List.nil_append, List.cons.injEq] at he
    obtain ⟨rfl, rfl⟩ := he
    obtain ⟨s1, hp, rfl⟩ := hr
    rw [ySeq_end X n acc x src s1 A T hp]
    simp [trackAll]
  · rintro t v r vs _ _ ⟨N1, ih1⟩ ⟨N2, ih2⟩
    refine ⟨max N1 N2 + 1, fun n hn acc src src' A T x c E he hr => ?_⟩
    obtain ⟨n, rfl⟩ : ∃ k, n = k + 1 := ⟨n - 1, by omega⟩
    obtain ⟨c0, E0, h0, hop⟩ := events_cons t
    obtain ⟨c1, E1, hE⟩ : ∃ c1 E1, eventsL r ++ [YEvent.seqEnd] = c1 :: E1 := by
      cases hl : eventsL r ++ [YEvent.seqEnd] with
      | nil => simp at hl
      | cons a b => exact ⟨a, b, rfl⟩
    rw [eventsL, h0, List.append_assoc, hE] at he
    simp only [List.cons_append, List.cons.injEq] at he
    obtain ⟨rfl, rfl⟩ := he
    have hsplit : E0 ++ c1 :: E1 ++ [x] = (E0 ++ [c1]) ++ (E1 ++ [x]) := by simp
    rw [hsplit] at hr ⊢
    obtain ⟨m, hr1, hr2⟩ := (reads_append _ _ _ _).1 hr
    rw [ySeq_open X n acc c0 src A T hop, ih1 n (by omega) src m A T c1 c0 E0 h0 hr1]
    simp only [YRes.bind]
    rw [ih2 n (by omega) (acc ++ [v]) m src' A _ x c1 E1 hE hr2, trackAll_append (E0 ++ [c1]) (E1 ++ [x]), List.append_assoc]
    rfl
  · intro m
    refine ⟨1, fun n hn src src' A T x c E he hr => ?_⟩
    obtain ⟨n, rfl⟩ : ∃ k, n = k + 1 := ⟨n - 1, by omega⟩
    simp only [eventsM, List.nil_append, List.cons.injEq] at he
    obtain ⟨rfl, rfl⟩ := he
    obtain ⟨s1, hp, rfl⟩ := hr
    rw [yMap_end X n m x src s1 A T hp]
    simp [trackAll]
  · rintro k v r dk dv m m1 m2 _ _ hm _ ⟨N1, ih1⟩ ⟨N2, ih2⟩ ⟨N3, ih3⟩
    refine ⟨N1 + N2 + N3 + 1, fun n hn src src' A T x c E he hr => ?_⟩
    obtain ⟨n, rfl⟩ : ∃ k, n = k + 1 := ⟨n - 1, by omega⟩
    obtain ⟨c0, E0, h0, hop⟩ := events_cons k
    obtain ⟨c2, E2, h2, -⟩ := events_cons v
    obtain ⟨c1, E1, hE⟩ : ∃ c1 E1, eventsM r ++ [YEvent.mapEnd] = c1 :: E1 := by
      cases hl : eventsM r ++ [YEvent.mapEnd] with
      | nil => simp at hl
      | cons a b => exact ⟨a, b, rfl⟩
    rw [eventsM, h0, h2, List.append_assoc, List.append_assoc, hE] at he
    simp only [List.cons_append, List.cons.injEq] at he
    obtain ⟨rfl, rfl⟩ := he
    have hsplit : E0 ++ c2 :: (E2 ++ c1 :: E1) ++ [x] = (E0 ++ [c2]) ++ ((E2 ++ [c1]) ++ (E1 ++ [x])) := by simp
    rw [hsplit] at hr ⊢
    obtain ⟨s1, hr1, hr2⟩ := (reads_append _ _ _ _).1 hr
    obtain ⟨s2, hr2, hr3⟩ := (reads_append _ _ _ _).1 hr2
    rw [yMap_open X n m c0 src A T hop, ih1 n (by omega) src s1 A T c2 c0 E0 h0 hr1]
    simp only [YRes.bind]
    rw [ih2 n (by omega) s1 s2 A _ c1 c2 E2 h2 hr2]
    simp only [hm, YRes.bind]
    rw [ih3 n (by omega) s2 src' A _ x c1 E1 hE hr3, trackAll_append (E0 ++ [c2]) _, trackAll_append (E2 ++ [c1]) (E1 ++ [x])]

theorem pure_no_alias (X : YLib) {t v} (h : PureT X t v) : t.events.flatMap recd = t.events := by
  refine PureT.rec (motive_1 := fun t v _ => t.events.flatMap recd = t.events)
    (motive_2 := fun l vs _ => (eventsL l).flatMap recd = eventsL l)
    (motive_3 := fun l m m2 _ => (eventsM l).flatMap recd = eventsM l) ?_ ?_ ?_ ?_ ?_ ?_ ?_ h
  · intro s; simp [YTree.events, recd]
  · intro l vs _ ih; simp [YTree.events, recd, ih]
  · intro l d _ ih; simp [YTree.events, recd, ih]
  · rfl
  · intro t v r vs _ _ h1 h2; simp [eventsL, h1, h2]
  · intro m; rfl
  · intro k v r dk dv m m1 m2 _ _ _ _ h1 h2 h3; simp [eventsM, h1, h2, h3]

/-! ### nodes without anchors, possibly with aliases -/

/-- the recorded events of all anchors describe their data -/
def AnchorsOk (X : YLib) (env : YEnv) (A : List (String × List YEvent)) : Prop :=
  ∀ n, (env n = none ∧ mget A n = none) ∨
    ∃ v t, env n = some v ∧ PureT X t v ∧ mget A n = some t.events ∧ ∀ a s, t = .scalar a s → ¬ QuotedNull s

theorem isNullWord_iff (s : YText) : isNullWord s = true ↔ s ∈ nullWords.map String.toList := by
  unfold isNullWord
  simp only [nullWords, List.contains_eq_mem, List.mem_cons, List.not_mem_nil, or_false, decide_eq_true_eq, List.map_cons, List.map_nil]
  simp only [← String.toList_inj, String.toList_ofList]

theorem resolveValue_eq (X : YLib) (s : YScalar) (h : ¬ QuotedNull s) : resolveValue X s = (resolveInterface X s).2 := by
  unfold resolveValue
  split
  · rename_i hw
    have hm := (isNullWord_iff _).1 hw
    unfold resolveInterface
    rw [if_neg (fun hc => h ⟨hc.1, hc.2, hm⟩)]
    revert hw
    have : s.value ∈ [['~'], ['n', 'u', 'l', 'l'], ['N', 'u', 'l', 'l'], ['N', 'U', 'L', 'L']] := by simpa [nullWords] using hm
    simp only [List.mem_cons, List.not_mem_nil, or_false] at this
    intro hw
    rcases this with h | h | h | h <;> rw [h] at hw ⊢ <;> simp [hw]
  · rfl

/-- the root of a node is read like any other node -/
theorem yParse_eq (X : YLib) (n : Nat) (t : YTree) (c : YEvent) (E : List YEvent) (src A T) (he : t.events = c :: E)
    (hq : ∀ a s, t = .scalar a s → ¬ QuotedNull s) : yParse X n (mkY c src A T) = yValue X n (mkY c src A T) := by
  cases n with
  | zero => simp [yParse, yValue]
  | succ n =>
    rw [yParse, yValue]
    cases t with
    | scalar a s =>
      simp only [YTree.events, List.cons.injEq] at he
      obtain ⟨rfl, rfl⟩ := he
      simp only [mkY, resolveValue_eq X s (hq a s rfl)]
    | seq a l =>
      simp only [YTree.events, List.cons.injEq] at he
      obtain ⟨rfl, rfl⟩ := he
      simp only [mkY]
    | map a l =>
      simp only [YTree.events, List.cons.injEq] at he
      obtain ⟨rfl, rfl⟩ := he
      simp only [mkY]
    | alias a =>
      simp only [YTree.events, List.cons.injEq] at he
      obtain ⟨rfl, rfl⟩ := he
      simp only [mkY]

/-- the result from some number of steps on -/
def Ends {α : Type} (f : Nat → YRes α) (r : YRes α) : Prop := ∃ N, ∀ n, N ≤ n → f n = r

theorem Ends.shift {α : Type} {f g : Nat → YRes α} {r : YRes α} (h : Ends f r) (hg : ∀ n, g (n + 1) = f n) : Ends g r := by
  obtain ⟨N, h⟩ := h
  refine ⟨N + 1, fun n hn => ?_⟩
  obtain ⟨n, rfl⟩ : ∃ k, n = k + 1 := ⟨n - 1, by omega⟩
  rw [hg, h n (by omega)]

theorem Ends.bind {α β : Type} {f : Nat → YRes α} {r : α} {g : Nat → α → YRes β} {q : YRes β} (h : Ends f (.ok r)) (hg : Ends (fun n => g n r) q) :
    Ends (fun n => (f n).bind (g n)) q := by
  obtain ⟨N, h⟩ := h
  obtain ⟨M, hg⟩ := hg
  exact ⟨max N M, fun n hn => by simp only [h n (by omega), YRes.bind]; exact hg n (by omega)⟩

theorem Ends.bind_error {α β : Type} {f : Nat → YRes α} {g : Nat → α → YRes β} (h : Ends f .error) : Ends (fun n => (f n).bind (g n)) .error := by
  obtain ⟨N, h⟩ := h
  exact ⟨N, fun n hn => by simp only [h n hn, YRes.bind]⟩

theorem Ends.bind_panic {α β : Type} {f : Nat → YRes α} {g : Nat → α → YRes β} (h : Ends f .panic) : Ends (fun n => (f n).bind (g n)) .panic := by
  obtain ⟨N, h⟩ := h
  exact ⟨N, fun n hn => by simp only [h n hn, YRes.bind]⟩

theorem Ends.const {α : Type} (r : YRes α) : Ends (fun _ => r) r := ⟨0, fun _ _ => rfl⟩

theorem Ends.congr {α : Type} {f g : Nat → YRes α} {r : YRes α} (h : Ends f r) (hg : ∀ n, g n = f n) : Ends g r := by
  obtain ⟨N, h⟩ := h
  exact ⟨N, fun n hn => by rw [hg, h n hn]⟩

/-- the next event of an aliased node -/
theorem alias_read (X : YLib) (env : YEnv) (A) (hA : AnchorsOk X env A) (a : String) (x : YEvent) (rest P T) :
    (env a = none ∧ Ends (fun n => yValue X n (mkY (.alias a) (x :: rest, none) A (P :: T))) .error) ∨
    ∃ v t, env a = some v ∧ PureT X t v ∧
      Ends (fun n => yValue X n (mkY (.alias a) (x :: rest, none) A (P :: T))) (.ok (v, mkY x (rest, none) A ((P ++ t.events ++ recd x) :: T))) := by
  rcases hA a with ⟨he, hm⟩ | ⟨v, t, he, ht, hm, hq⟩
  · refine .inl ⟨he, Ends.shift (f := fun n => yAlias X n a (mkY (.alias a) (x :: rest, none) A (P :: T))) ?_ (fun n => ?_)⟩
    · refine Ends.shift (f := fun _ => .error) (.const _) (fun n => ?_)
      rw [yAlias]; simp [mkY, hm]
    · rw [yValue]; simp [mkY]
  · refine .inr ⟨v, t, he, ht, ?_⟩
    obtain ⟨c, E, hE, hop⟩ := events_cons t
    refine Ends.shift (f := fun n => yAlias X n a (mkY (.alias a) (x :: rest, none) A (P :: T))) ?_ (fun n => ?_)
    · refine Ends.shift (f := fun n => yParse X n (mkY c (x :: rest, optL E) A (track c (P :: T)))) ?_ (fun n => ?_)
      · obtain ⟨N, h⟩ := readA_all X ht
        refine ⟨N, fun n hn => ?_⟩
        show yParse X n _ = _
        rw [yParse_eq X n t c E _ _ _ hE hq, h n hn _ (rest, none) A _ x c E hE (reads_replay E x rest), ← pure_no_alias X ht,
          track_cons, trackAll_cons, hE]
        simp
      · rw [yAlias]
        have : popS (x :: rest, some (c :: E)) = some (c, (x :: rest, optL E)) := rfl
        have := nextEvent_mkY A (P :: T) (c := .alias a) (by simp) this
        simp only [mkY] at this ⊢
        simp [hm, hE, this, YRes.bind]
    · rw [yValue]; simp [mkY]

/-- reading inside of a node whose events are recorded: `P` was recorded before, and all events of the node are recorded, where
aliases are replaced. -/
def ReadB {α β : Type} (f : Nat → YRes (α × YState)) (out : YRes (β × YEnv)) (env : YEnv) (good : β → α → List YEvent → Prop)
    (x : YEvent) (rest : List YEvent) (A : List (String × List YEvent)) (P : List YEvent) (T : List (List YEvent)) : Prop :=
  match out with
  | .ok (v, env') => env' = env ∧ ∃ w es, good v w es ∧ Ends f (.ok (w, mkY x (rest, none) A ((P ++ es ++ recd x) :: T)))
  | .error => Ends f .error
  | .panic => Ends f .panic
  | .running => False

theorem define_empty (env : YEnv) (v : Data) : env.define "" v = env := by
  funext n; simp [YEnv.define]

theorem pop_input (e : YEvent) (i : List YEvent) : popS (e :: i, none) = some (e, (i, none)) := rfl

theorem split_last (l : List YEvent) (e : YEvent) : ∃ c E, l ++ [e] = c :: E := by
  cases l with
  | nil => exact ⟨e, [], rfl⟩
  | cons a b => exact ⟨a, b ++ [e], rfl⟩

def GoodT (X : YLib) (v w : Data) (es : List YEvent) : Prop := w = v ∧ ∃ t, PureT X t v ∧ es = t.events
def YGoodL (X : YLib) (acc : List Data) (vs : List Data) (w : Data) (es : List YEvent) : Prop :=
  w = .seq (acc ++ vs) ∧ ∃ l, PureL X l vs ∧ es = eventsL l ++ [.seqEnd]
def GoodM (X : YLib) (acc : List (Key × Data)) (m : List (Key × Data)) (w : Data) (es : List YEvent) : Prop :=
  w = .dict m ∧ ∃ l, PureM X l acc m ∧ es = eventsM l ++ [.mapEnd]

/-- `ReadB` for nodes, elements and entries -/
def BT (X : YLib) (t : YTree) : Prop := t.noAnchors → ∀ env A, AnchorsOk X env A → ∀ c E x rest P T, t.events = c :: E →
  ReadB (fun n => yValue X n (mkY c (E ++ x :: rest, none) A ((P ++ recd c) :: T))) (t.data X env) env (GoodT X) x rest A P T
def BL (X : YLib) (l : List YTree) : Prop := noAnchorsL l → ∀ env A, AnchorsOk X env A → ∀ acc c E x rest P T, eventsL l ++ [.seqEnd] = c :: E →
  ReadB (fun n => ySeq X n acc (mkY c (E ++ x :: rest, none) A ((P ++ recd c) :: T))) (dataL X l env) env (YGoodL X acc) x rest A P T
def BM (X : YLib) (l : List (YTree × YTree)) : Prop := noAnchorsM l → ∀ env A, AnchorsOk X env A → ∀ acc c E x rest P T,
  eventsM l ++ [.mapEnd] = c :: E →
  ReadB (fun n => yMap X n acc (mkY c (E ++ x :: rest, none) A ((P ++ recd c) :: T))) (dataM X l acc env) env (GoodM X acc) x rest A P T

theorem BT_scalar (X : YLib) (a : String) (s : YScalar) : BT X (.scalar a s) := by
  rintro (rfl : a = "") env A hA c E x rest P T he
  simp only [YTree.events, List.cons.injEq] at he
  obtain ⟨rfl, rfl⟩ := he
  rw [YTree.data, define_empty]
  refine ⟨rfl, _, _, ⟨rfl, _, .scalar s, rfl⟩, ?_⟩
  refine Ends.shift (f := fun _ => _) (.const _) (fun n => ?_)
  rw [yValue]
  have := nextEvent_mkY A ((P ++ recd (.scalar "" s)) :: T) (c := .scalar "" s) (by simp) (pop_input x rest)
  rw [track_cons] at this
  simp only [mkY, recd_scalar] at this ⊢
  simp [beginAnchor, this, YRes.bind, endAnchor, YTree.events]

theorem BT_seq (X : YLib) (a : String) (l : List YTree) : BL X l → BT X (.seq a l) := by
  intro ih h env A hA c E x rest P T he
  simp only [YTree.noAnchors] at h
  obtain ⟨rfl, hl⟩ := h
  simp only [YTree.events, List.cons.injEq] at he
  obtain ⟨rfl, rfl⟩ := he
  obtain ⟨c1, E1, hE⟩ := split_last (eventsL l) .seqEnd
  have h2 := ih hl env A hA [] c1 E1 x rest (P ++ [.seqStart ""]) T hE
  have h1 := nextEvent_mkY A ((P ++ recd (.seqStart "")) :: T) (c := .seqStart "") (by simp) (pop_input c1 (E1 ++ x :: rest))
  rw [track_cons] at h1
  have key : ∀ n, yValue X (n + 1) (mkY (.seqStart "") (eventsL l ++ [.seqEnd] ++ x :: rest, none) A ((P ++ recd (.seqStart "")) :: T)) =
      (ySeq X n [] (mkY c1 (E1 ++ x :: rest, none) A ((P ++ [.seqStart ""] ++ recd c1) :: T))).bind (fun r => .ok (r.1, r.2)) := by
    intro n
    rw [yValue, hE]
    simp only [mkY, List.cons_append, recd_seqStart, recd_mapStart] at h1 ⊢
    simp [beginAnchor, h1, YRes.bind, endAnchor]
  rw [YTree.data]
  revert h2
  cases dataL X l env with
  | ok r =>
    obtain ⟨vs, env'⟩ := r
    rintro ⟨rfl, w, es, ⟨rfl, l', hl', rfl⟩, hend⟩
    simp only [YRes.bind, define_empty]
    refine ⟨rfl, _, _, ⟨rfl, .seq "" l', .seq _ _ hl', rfl⟩, ?_⟩
    refine Ends.shift (Ends.bind hend (g := fun _ (r : Data × YState) => .ok (r.1, r.2)) ?_) key
    exact ⟨0, fun n _ => by simp [YTree.events]⟩
  | error => intro h2; exact Ends.shift (Ends.bind_error h2) key
  | panic => intro h2; exact Ends.shift (Ends.bind_panic h2) key
  | running => exact id

theorem BT_map (X : YLib) (a : String) (l : List (YTree × YTree)) : BM X l → BT X (.map a l) := by
  intro ih h env A hA c E x rest P T he
  simp only [YTree.noAnchors] at h
  obtain ⟨rfl, hl⟩ := h
  simp only [YTree.events, List.cons.injEq] at he
  obtain ⟨rfl, rfl⟩ := he
  obtain ⟨c1, E1, hE⟩ := split_last (eventsM l) .mapEnd
  have h2 := ih hl env A hA [] c1 E1 x rest (P ++ [.mapStart ""]) T hE
  have h1 := nextEvent_mkY A ((P ++ recd (.mapStart "")) :: T) (c := .mapStart "") (by simp) (pop_input c1 (E1 ++ x :: rest))
  rw [track_cons] at h1
  have key : ∀ n, yValue X (n + 1) (mkY (.mapStart "") (eventsM l ++ [.mapEnd] ++ x :: rest, none) A ((P ++ recd (.mapStart "")) :: T)) =
      (yMap X n [] (mkY c1 (E1 ++ x :: rest, none) A ((P ++ [.mapStart ""] ++ recd c1) :: T))).bind (fun r => .ok (r.1, r.2)) := by
    intro n
    rw [yValue, hE]
    simp only [mkY, List.cons_append, recd_seqStart, recd_mapStart] at h1 ⊢
    simp [beginAnchor, h1, YRes.bind, endAnchor]
  rw [YTree.data]
  revert h2
  cases dataM X l [] env with
  | ok r =>
    obtain ⟨d, env'⟩ := r
    rintro ⟨rfl, w, es, ⟨rfl, l', hl', rfl⟩, hend⟩
    simp only [YRes.bind, define_empty]
    refine ⟨rfl, _, _, ⟨rfl, .map "" l', .map _ _ hl', rfl⟩, ?_⟩
    refine Ends.shift (Ends.bind hend (g := fun _ (r : Data × YState) => .ok (r.1, r.2)) ?_) key
    exact ⟨0, fun n _ => by simp [YTree.events]⟩
  | error => intro h2; exact Ends.shift (Ends.bind_error h2) key
  | panic => intro h2; exact Ends.shift (Ends.bind_panic h2) key
  | running => exact id

theorem BT_alias (X : YLib) (a : String) : BT X (.alias a) := by
  intro _ env A hA c E x rest P T he
  simp only [YTree.events, List.cons.injEq] at he
  obtain ⟨rfl, rfl⟩ := he
  rw [YTree.data]
  rcases alias_read X env A hA a x rest (P ++ recd (.alias a)) T with ⟨h0, h1⟩ | ⟨v, t, h0, ht, h1⟩
  · rw [h0]; exact h1
  · rw [h0]
    refine ⟨rfl, v, t.events, ⟨rfl, t, ht, rfl⟩, ?_⟩
    simpa using h1

theorem BL_nil (X : YLib) : BL X [] := by
  intro _ env A hA acc c E x rest P T he
  simp only [eventsL, List.nil_append, List.cons.injEq] at he
  obtain ⟨rfl, rfl⟩ := he
  rw [dataL]
  refine ⟨rfl, _, _, ⟨rfl, [], .nil, rfl⟩, ?_⟩
  refine Ends.shift (f := fun _ => _) (.const _) (fun n => ?_)
  rw [show ([] : List YEvent) ++ x :: rest = x :: rest from rfl, ySeq_end X n acc x _ _ A _ (pop_input x rest), track_cons]
  simp [eventsL]

theorem BL_cons (X : YLib) (t : YTree) (r : List YTree) : BT X t → BL X r → BL X (t :: r) := by
  intro ih1 ih2 h env A hA acc c E x rest P T he
  simp only [noAnchorsL] at h
  obtain ⟨c0, E0, h0, hop⟩ := events_cons t
  obtain ⟨c1, E1, hE⟩ := split_last (eventsL r) .seqEnd
  rw [eventsL, h0, List.append_assoc, hE] at he
  simp only [List.cons_append, List.cons.injEq] at he
  obtain ⟨rfl, rfl⟩ := he
  have h1 := ih1 h.1 env A hA c0 E0 c1 (E1 ++ x :: rest) P T h0
  rw [dataL]
  have hsplit : E0 ++ c1 :: E1 ++ x :: rest = E0 ++ c1 :: (E1 ++ x :: rest) := by simp
  rw [hsplit]
  have key := fun n => ySeq_open X n acc c0 (E0 ++ c1 :: (E1 ++ x :: rest), none) A ((P ++ recd c0) :: T) hop
  revert h1
  cases t.data X env with
  | ok d =>
    obtain ⟨v, env'⟩ := d
    rintro ⟨rfl, w, es, ⟨rfl, t', ht', rfl⟩, hend⟩
    have h2 := ih2 h.2 env' A hA (acc ++ [w]) c1 E1 x rest (P ++ t'.events) T hE
    simp only [YRes.bind]
    revert h2
    cases dataL X r env' with
    | ok r2 =>
      obtain ⟨vs, env2⟩ := r2
      rintro ⟨rfl, w2, es2, ⟨rfl, l', hl', rfl⟩, hend2⟩
      refine ⟨rfl, _, _, ⟨rfl, t' :: l', .cons _ _ _ _ ht' hl', rfl⟩, ?_⟩
      refine Ends.shift (Ends.bind hend (g := fun n (r : Data × YState) => ySeq X n (acc ++ [r.1]) r.2)
        (q := .ok (.seq (acc ++ w :: vs), mkY x (rest, none) A ((P ++ (eventsL (t' :: l') ++ [.seqEnd]) ++ recd x) :: T))) ?_) key
      simpa [eventsL] using hend2
    | error => intro h2; exact Ends.shift (Ends.bind hend (g := fun n (r : Data × YState) => ySeq X n (acc ++ [r.1]) r.2) h2) key
    | panic => intro h2; exact Ends.shift (Ends.bind hend (g := fun n (r : Data × YState) => ySeq X n (acc ++ [r.1]) r.2) h2) key
    | running => exact id
  | error => intro h1; exact Ends.shift (Ends.bind_error h1) key
  | panic => intro h1; exact Ends.shift (Ends.bind_panic h1) key
  | running => exact id

theorem BM_nil (X : YLib) : BM X [] := by
  intro _ env A hA acc c E x rest P T he
  simp only [eventsM, List.nil_append, List.cons.injEq] at he
  obtain ⟨rfl, rfl⟩ := he
  rw [dataM]
  refine ⟨rfl, _, _, ⟨rfl, [], .nil _, rfl⟩, ?_⟩
  refine Ends.shift (f := fun _ => _) (.const _) (fun n => ?_)
  rw [show ([] : List YEvent) ++ x :: rest = x :: rest from rfl, yMap_end X n acc x _ _ A _ (pop_input x rest), track_cons]
  simp [eventsM]

theorem BM_cons (X : YLib) (p : YTree × YTree) (r : List (YTree × YTree)) : (BT X p.1 ∧ BT X p.2) → BM X r → BM X (p :: r) := by
  obtain ⟨k, v⟩ := p
  rintro ⟨ihk, ihv⟩ ih2 h env A hA acc c E x rest P T he
  simp only [noAnchorsM] at h
  obtain ⟨c0, E0, h0, hop⟩ := events_cons k
  obtain ⟨c2, E2, hv2, -⟩ := events_cons v
  obtain ⟨c1, E1, hE⟩ := split_last (eventsM r) .mapEnd
  rw [eventsM, h0, hv2, List.append_assoc, List.append_assoc, hE] at he
  simp only [List.cons_append, List.cons.injEq] at he
  obtain ⟨rfl, rfl⟩ := he
  have h1 := ihk h.1 env A hA c0 E0 c2 (E2 ++ c1 :: (E1 ++ x :: rest)) P T h0
  have hsplit : E0 ++ c2 :: (E2 ++ c1 :: E1) ++ x :: rest = E0 ++ c2 :: (E2 ++ c1 :: (E1 ++ x :: rest)) := by simp
  rw [dataM, hsplit]
  have key := fun n => yMap_open X n acc c0 (E0 ++ c2 :: (E2 ++ c1 :: (E1 ++ x :: rest)), none) A ((P ++ recd c0) :: T) hop
  revert h1
  cases k.data X env with
  | error => intro h1; exact Ends.shift (Ends.bind_error h1) key
  | panic => intro h1; exact Ends.shift (Ends.bind_panic h1) key
  | running => exact id
  | ok d =>
    obtain ⟨dk, env'⟩ := d
    rintro ⟨rfl, dk', es, ⟨rfl, k', hk', rfl⟩, hend⟩
    have h2 := ihv h.2.1 env' A hA c2 E2 c1 (E1 ++ x :: rest) (P ++ k'.events) T hv2
    simp only [YRes.bind]
    let G := fun n (q : Data × YState) => (yValue X n q.2).bind fun v => (assignKey acc q.1 v.1).bind fun m => yMap X n m v.2
    have step : ∀ {q}, Ends (fun n => G n (dk', mkY c2 (E2 ++ c1 :: (E1 ++ x :: rest), none) A ((P ++ k'.events ++ recd c2) :: T))) q →
        Ends (fun n => yMap X n acc (mkY c0 (E0 ++ c2 :: (E2 ++ c1 :: (E1 ++ x :: rest)), none) A ((P ++ recd c0) :: T))) q :=
      fun hq => Ends.shift (Ends.bind hend (g := G) hq) key
    revert h2
    cases v.data X env' with
    | error => intro h2; exact step (Ends.bind_error h2)
    | panic => intro h2; exact step (Ends.bind_panic h2)
    | running => exact id
    | ok d2 =>
      obtain ⟨dv, env2⟩ := d2
      rintro ⟨rfl, dv', es2, ⟨rfl, v', hv', rfl⟩, hend2⟩
      simp only
      cases hm : assignKey acc dk' dv' with
      | error => simp [assignKey] at hm; split at hm <;> cases hm
      | running => simp [assignKey] at hm; split at hm <;> cases hm
      | panic =>
        refine step (Ends.bind hend2 ?_)
        simp only [hm, YRes.bind]
        exact .const _
      | ok m1 =>
        have h3 := ih2 h.2.2 env2 A hA m1 c1 E1 x rest (P ++ k'.events ++ v'.events) T hE
        have step2 : ∀ {q}, Ends (fun n => yMap X n m1 (mkY c1 (E1 ++ x :: rest, none) A ((P ++ k'.events ++ v'.events ++ recd c1) :: T))) q →
            Ends (fun n => yMap X n acc (mkY c0 (E0 ++ c2 :: (E2 ++ c1 :: (E1 ++ x :: rest)), none) A ((P ++ recd c0) :: T))) q := by
          intro q hq
          refine step (Ends.bind hend2 ?_)
          simp only [hm, YRes.bind]
          exact hq
        simp only
        revert h3
        cases dataM X r m1 env2 with
        | error => exact fun h3 => step2 h3
        | panic => exact fun h3 => step2 h3
        | running => exact id
        | ok d3 =>
          obtain ⟨m2, env3⟩ := d3
          rintro ⟨rfl, w3, es3, ⟨rfl, l', hl', rfl⟩, hend3⟩
          refine ⟨rfl, _, _, ⟨rfl, (k', v') :: l', .cons _ _ _ _ _ _ _ _ hk' hv' hm hl', rfl⟩, step2 ?_⟩
          simpa [eventsM] using hend3

theorem readB_all (X : YLib) (t : YTree) : BT X t :=
  YTree.rec (motive_1 := BT X) (motive_2 := BL X) (motive_3 := BM X) (motive_4 := fun p => BT X p.1 ∧ BT X p.2)
    (BT_scalar X) (BT_seq X) (BT_map X) (BT_alias X) (BL_nil X) (BL_cons X) (BM_nil X) (BM_cons X) (fun _ _ hk hv => ⟨hk, hv⟩) t

theorem readB_list (X : YLib) (l : List YTree) : BL X l := by
  induction l with
  | nil => exact BL_nil X
  | cons t r ih => exact BL_cons X t r (readB_all X t) ih

theorem readB_map (X : YLib) (l : List (YTree × YTree)) : BM X l := by
  induction l with
  | nil => exact BM_nil X
  | cons t r ih => exact BM_cons X t r ⟨readB_all X _, readB_all X _⟩ ih

/-! ### nodes with anchors -/

/-- reading outside of nodes with anchors -/
def ReadC (X : YLib) {α : Type} (f : Nat → YRes (Data × YState)) (out : YRes (α × YEnv)) (val : α → Data) (x : YEvent) (rest : List YEvent) : Prop :=
  match out with
  | .ok (v, env') => ∃ A' t0', AnchorsOk X env' A' ∧ Ends f (.ok (val v, mkY x (rest, none) A' [t0']))
  | .error => Ends f .error
  | .panic => Ends f .panic
  | .running => False

theorem anchorsOk_define (X : YLib) (env : YEnv) (A) (h : AnchorsOk X env A) (a : String) (ha : a ≠ "") (v : Data) (t : YTree) (ht : PureT X t v)
    (hq : ∀ a s, t = .scalar a s → ¬ QuotedNull s) : AnchorsOk X (env.define a v) (mset A a t.events) := by
  intro n
  by_cases hn : n = a
  · subst hn
    exact .inr ⟨v, t, by simp [YEnv.define, ha], ht, mget_mset_self _ _ _, hq⟩
  · have e1 : env.define a v n = env n := by simp [YEnv.define, hn]
    rw [e1, mget_mset_ne _ _ hn]
    exact h n

def NotAlias : YEvent → Prop
  | .alias _ => False
  | _ => True

theorem recd_notAlias {x : YEvent} (h : NotAlias x) : recd x = [x] := by cases x <;> simp_all [NotAlias, recd]

/-- end of a node with an anchor -/
theorem endAnchor_mkY (a : String) (ha : a ≠ "") (x : YEvent) (src A) (c : YEvent) (es : List YEvent) (t0 : List YEvent) :
    endAnchor a (mkY x src A [c :: (es ++ [x]), t0]) = mkY x src (mset A a (c.bare :: es)) [t0 ++ c.bare :: es] := by
  unfold endAnchor
  rw [if_neg ha]
  have : (c.bare :: (es ++ [x])).dropLast = c.bare :: es := by
    rw [← List.cons_append, List.dropLast_concat]
  simp [mkY, bareFirst, this]

theorem head_notAlias {t : YTree} {c : YEvent} {E : List YEvent} (h : t.events = c :: E) (ha : ¬ t.isAlias) : NotAlias c := by
  cases t <;> simp only [YTree.events, List.cons.injEq] at h <;> obtain ⟨rfl, rfl⟩ := h <;> simp_all [NotAlias, YTree.isAlias]

theorem readC_all (X : YLib) (t : YTree) : t.tame → ∀ env A, AnchorsOk X env A → ∀ c E x rest t0, (t.anchor = "" ∨ NotAlias x) → t.events = c :: E →
    ReadC X (fun n => yValue X n (mkY c (E ++ x :: rest, none) A [t0])) (t.data X env) id x rest := by
  refine YTree.rec
    (motive_1 := fun t => t.tame → ∀ env A, AnchorsOk X env A → ∀ c E x rest t0, (t.anchor = "" ∨ NotAlias x) → t.events = c :: E →
      ReadC X (fun n => yValue X n (mkY c (E ++ x :: rest, none) A [t0])) (t.data X env) id x rest)
    (motive_2 := fun l => tameL l → ∀ env A, AnchorsOk X env A → ∀ acc c E x rest t0, eventsL l ++ [.seqEnd] = c :: E →
      ReadC X (fun n => ySeq X n acc (mkY c (E ++ x :: rest, none) A [t0])) (dataL X l env) (fun vs => .seq (acc ++ vs)) x rest)
    (motive_3 := fun l => tameM l → ∀ env A, AnchorsOk X env A → ∀ acc c E x rest t0, eventsM l ++ [.mapEnd] = c :: E →
      ReadC X (fun n => yMap X n acc (mkY c (E ++ x :: rest, none) A [t0])) (dataM X l acc env) (fun m => .dict m) x rest)
    (motive_4 := fun p => (p.1.tame → ∀ env A, AnchorsOk X env A → ∀ c E x rest t0, (p.1.anchor = "" ∨ NotAlias x) → p.1.events = c :: E →
      ReadC X (fun n => yValue X n (mkY c (E ++ x :: rest, none) A [t0])) (p.1.data X env) id x rest) ∧
      (p.2.tame → ∀ env A, AnchorsOk X env A → ∀ c E x rest t0, (p.2.anchor = "" ∨ NotAlias x) → p.2.events = c :: E →
      ReadC X (fun n => yValue X n (mkY c (E ++ x :: rest, none) A [t0])) (p.2.data X env) id x rest))
    ?_ ?_ ?_ ?_ ?_ ?_ ?_ ?_ ?_ t
  · intro a s ht env A hA c E x rest t0 hx he
    simp only [YTree.events, List.cons.injEq] at he
    obtain ⟨rfl, rfl⟩ := he
    rw [YTree.data]
    by_cases ha : a = ""
    · subst ha
      rw [define_empty]
      refine ⟨A, t0 ++ recd x, hA, Ends.shift (f := fun _ => _) (.const _) (fun n => ?_)⟩
      rw [yValue]
      have := nextEvent_mkY A [t0] (c := .scalar "" s) (by simp) (pop_input x rest)
      rw [track_cons] at this
      simp only [mkY] at this ⊢
      simp [beginAnchor, this, YRes.bind, endAnchor]
    · have hq : ¬ QuotedNull s := (ht.resolve_left ha)
      have hx : NotAlias x := hx.resolve_left ha
      refine ⟨mset A a [.scalar "" s], t0 ++ [.scalar "" s],
        anchorsOk_define X env A hA a ha _ (.scalar "" s) (.scalar s) (fun a' s' h => by cases h; exact hq),
        Ends.shift (f := fun _ => _) (.const _) (fun n => ?_)⟩
      rw [yValue]
      have := nextEvent_mkY A [[.scalar a s], t0] (c := .scalar a s) (by simp) (pop_input x rest)
      rw [track_cons, recd_notAlias hx] at this
      have h2 := endAnchor_mkY a ha x (rest, none) A (.scalar a s) [] t0
      simp only [mkY, List.cons_append, List.nil_append, YEvent.bare] at this h2 ⊢
      simp [beginAnchor, ha, this, YRes.bind, h2]
  · intro a l ih ht env A hA c E x rest t0 hx he
    simp only [YTree.events, List.cons.injEq] at he
    obtain ⟨rfl, rfl⟩ := he
    obtain ⟨c1, E1, hE⟩ := split_last (eventsL l) .seqEnd
    rw [YTree.data]
    by_cases ha : a = ""
    · subst ha
      simp only [YTree.tame, if_true] at ht
      have h1 := nextEvent_mkY A [t0] (c := .seqStart "") (by simp) (pop_input c1 (E1 ++ x :: rest))
      rw [track_cons] at h1
      have h2 := ih ht env A hA [] c1 E1 x rest (t0 ++ recd c1) hE
      have key : ∀ n, yValue X (n + 1) (mkY (.seqStart "") (eventsL l ++ [.seqEnd] ++ x :: rest, none) A [t0]) =
          (ySeq X n [] (mkY c1 (E1 ++ x :: rest, none) A [t0 ++ recd c1])).bind (fun r => .ok (r.1, r.2)) := by
        intro n
        rw [yValue, hE]
        simp only [mkY, List.cons_append] at h1 ⊢
        simp [beginAnchor, h1, YRes.bind, endAnchor]
      revert h2
      cases dataL X l env with
      | ok r =>
        rintro ⟨A', t0', hA', hend⟩
        simp only [YRes.bind, define_empty]
        exact ⟨A', t0', hA', Ends.shift (Ends.bind hend (g := fun _ (r : Data × YState) => .ok (r.1, r.2)) (.const _)) key⟩
      | error => intro h2; exact Ends.shift (Ends.bind_error h2) key
      | panic => intro h2; exact Ends.shift (Ends.bind_panic h2) key
      | running => exact id
    · simp only [YTree.tame, if_neg ha] at ht
      have hx : NotAlias x := hx.resolve_left ha
      have h1 := nextEvent_mkY A [[.seqStart a], t0] (c := .seqStart a) (by simp) (pop_input c1 (E1 ++ x :: rest))
      rw [track_cons] at h1
      have h2 : ReadB (fun n => ySeq X n [] (mkY c1 (E1 ++ x :: rest, none) A [[.seqStart a] ++ recd c1, t0])) (dataL X l env) env (YGoodL X [])
          x rest A [.seqStart a] [t0] := readB_list X l ht env A hA [] c1 E1 x rest [.seqStart a] [t0] hE
      have key : ∀ n, yValue X (n + 1) (mkY (.seqStart a) (eventsL l ++ [.seqEnd] ++ x :: rest, none) A [t0]) =
          (ySeq X n [] (mkY c1 (E1 ++ x :: rest, none) A [[.seqStart a] ++ recd c1, t0])).bind (fun r => .ok (r.1, endAnchor a r.2)) := by
        intro n
        rw [yValue, hE]
        simp only [mkY, List.cons_append] at h1 ⊢
        simp [beginAnchor, ha, h1, YRes.bind]
      revert h2
      cases dataL X l env with
      | ok r =>
        obtain ⟨vs, env'⟩ := r
        rintro ⟨rfl, w, es, ⟨rfl, l', hl', rfl⟩, hend⟩
        simp only [YRes.bind]
        refine ⟨_, t0 ++ (YTree.seq "" l').events, anchorsOk_define X env' A hA a ha _ (.seq "" l') (.seq _ _ hl') (fun a' s' h => by cases h),
          Ends.shift (Ends.bind hend (g := fun _ (r : Data × YState) => .ok (r.1, endAnchor a r.2)) ?_) key⟩
        · have h3 := endAnchor_mkY a ha x (rest, none) A (.seqStart a) (eventsL l' ++ [.seqEnd]) t0
          refine ⟨0, fun n _ => ?_⟩
          rw [recd_notAlias hx]
          simp only [List.cons_append, List.nil_append] at h3 ⊢
          rw [h3]
          simp [YTree.events, YEvent.bare]
      | error => intro h2; exact Ends.shift (Ends.bind_error h2) key
      | panic => intro h2; exact Ends.shift (Ends.bind_panic h2) key
      | running => exact id
  · intro a l ih ht env A hA c E x rest t0 hx he
    simp only [YTree.events, List.cons.injEq] at he
    obtain ⟨rfl, rfl⟩ := he
    obtain ⟨c1, E1, hE⟩ := split_last (eventsM l) .mapEnd
    rw [YTree.data]
    by_cases ha : a = ""
    · subst ha
      simp only [YTree.tame, if_true] at ht
      have h1 := nextEvent_mkY A [t0] (c := .mapStart "") (by simp) (pop_input c1 (E1 ++ x :: rest))
      rw [track_cons] at h1
      have h2 := ih ht env A hA [] c1 E1 x rest (t0 ++ recd c1) hE
      have key : ∀ n, yValue X (n + 1) (mkY (.mapStart "") (eventsM l ++ [.mapEnd] ++ x :: rest, none) A [t0]) =
          (yMap X n [] (mkY c1 (E1 ++ x :: rest, none) A [t0 ++ recd c1])).bind (fun r => .ok (r.1, r.2)) := by
        intro n
        rw [yValue, hE]
        simp only [mkY, List.cons_append] at h1 ⊢
        simp [beginAnchor, h1, YRes.bind, endAnchor]
      revert h2
      cases dataM X l [] env with
      | ok r =>
        rintro ⟨A', t0', hA', hend⟩
        simp only [YRes.bind, define_empty]
        exact ⟨A', t0', hA', Ends.shift (Ends.bind hend (g := fun _ (r : Data × YState) => .ok (r.1, r.2)) (.const _)) key⟩
      | error => intro h2; exact Ends.shift (Ends.bind_error h2) key
      | panic => intro h2; exact Ends.shift (Ends.bind_panic h2) key
      | running => exact id
    · simp only [YTree.tame, if_neg ha] at ht
      have hx : NotAlias x := hx.resolve_left ha
      have h1 := nextEvent_mkY A [[.mapStart a], t0] (c := .mapStart a) (by simp) (pop_input c1 (E1 ++ x :: rest))
      rw [track_cons] at h1
      have h2 : ReadB (fun n => yMap X n [] (mkY c1 (E1 ++ x :: rest, none) A [[.mapStart a] ++ recd c1, t0])) (dataM X l [] env) env (GoodM X [])
          x rest A [.mapStart a] [t0] := readB_map X l ht env A hA [] c1 E1 x rest [.mapStart a] [t0] hE
      have key : ∀ n, yValue X (n + 1) (mkY (.mapStart a) (eventsM l ++ [.mapEnd] ++ x :: rest, none) A [t0]) =
          (yMap X n [] (mkY c1 (E1 ++ x :: rest, none) A [[.mapStart a] ++ recd c1, t0])).bind (fun r => .ok (r.1, endAnchor a r.2)) := by
        intro n
        rw [yValue, hE]
        simp only [mkY, List.cons_append] at h1 ⊢
        simp [beginAnchor, ha, h1, YRes.bind]
      revert h2
      cases dataM X l [] env with
      | ok r =>
        obtain ⟨d, env'⟩ := r
        rintro ⟨rfl, w, es, ⟨rfl, l', hl', rfl⟩, hend⟩
        simp only [YRes.bind]
        refine ⟨_, t0 ++ (YTree.map "" l').events, anchorsOk_define X env' A hA a ha _ (.map "" l') (.map _ _ hl') (fun a' s' h => by cases h),
          Ends.shift (Ends.bind hend (g := fun _ (r : Data × YState) => .ok (r.1, endAnchor a r.2)) ?_) key⟩
        · have h3 := endAnchor_mkY a ha x (rest, none) A (.mapStart a) (eventsM l' ++ [.mapEnd]) t0
          refine ⟨0, fun n _ => ?_⟩
          rw [recd_notAlias hx]
          simp only [List.cons_append, List.nil_append] at h3 ⊢
          rw [h3]
          simp [YTree.events, YEvent.bare]
      | error => intro h2; exact Ends.shift (Ends.bind_error h2) key
      | panic => intro h2; exact Ends.shift (Ends.bind_panic h2) key
      | running => exact id
  · intro a _ env A hA c E x rest t0 _ he
    simp only [YTree.events, List.cons.injEq] at he
    obtain ⟨rfl, rfl⟩ := he
    rw [YTree.data]
    rcases alias_read X env A hA a x rest t0 [] with ⟨h0, h1⟩ | ⟨v, t, h0, ht, h1⟩
    · rw [h0]; exact h1
    · rw [h0]; exact ⟨A, _, hA, h1⟩
  · intro _ env A hA acc c E x rest t0 he
    simp only [eventsL, List.nil_append, List.cons.injEq] at he
    obtain ⟨rfl, rfl⟩ := he
    rw [dataL]
    refine ⟨A, t0 ++ recd x, hA, Ends.shift (f := fun _ => _) (.const _) (fun n => ?_)⟩
    rw [show ([] : List YEvent) ++ x :: rest = x :: rest from rfl, ySeq_end X n acc x _ _ A _ (pop_input x rest), track_cons]
    simp
  · intro t r ih1 ih2 h env A hA acc c E x rest t0 he
    simp only [tameL] at h
    obtain ⟨c0, E0, h0, hop⟩ := events_cons t
    obtain ⟨c1, E1, hE⟩ := split_last (eventsL r) .seqEnd
    have hap : t.anchor = "" ∨ NotAlias c1 := by
      cases r with
      | nil =>
        simp only [eventsL, List.nil_append, List.cons.injEq] at hE
        exact .inr (hE.1 ▸ trivial)
      | cons u r =>
        refine (h.2.1 u rfl).imp id (fun hu => ?_)
        obtain ⟨cu, Eu, hu0, -⟩ := events_cons u
        rw [eventsL, hu0] at hE
        simp only [List.cons_append, List.cons.injEq] at hE
        exact hE.1 ▸ head_notAlias hu0 hu
    rw [eventsL, h0, List.append_assoc, hE] at he
    simp only [List.cons_append, List.cons.injEq] at he
    obtain ⟨rfl, rfl⟩ := he
    have h1 := ih1 h.1 env A hA c0 E0 c1 (E1 ++ x :: rest) t0 hap h0
    rw [dataL]
    have hsplit : E0 ++ c1 :: E1 ++ x :: rest = E0 ++ c1 :: (E1 ++ x :: rest) := by simp
    rw [hsplit]
    have key := fun n => ySeq_open X n acc c0 (E0 ++ c1 :: (E1 ++ x :: rest), none) A [t0] hop
    revert h1
    cases t.data X env with
    | ok d =>
      obtain ⟨v, env'⟩ := d
      rintro ⟨A', t0', hA', hend⟩
      have h2 := ih2 h.2.2 env' A' hA' (acc ++ [v]) c1 E1 x rest t0' hE
      simp only [YRes.bind]
      revert h2
      cases dataL X r env' with
      | ok r2 =>
        rintro ⟨A2, t2, hA2, hend2⟩
        refine ⟨A2, t2, hA2, Ends.shift (Ends.bind hend (g := fun n (r : Data × YState) => ySeq X n (acc ++ [r.1]) r.2) ?_) key⟩
        simpa using hend2
      | error => intro h2; exact Ends.shift (Ends.bind hend (g := fun n (r : Data × YState) => ySeq X n (acc ++ [r.1]) r.2) h2) key
      | panic => intro h2; exact Ends.shift (Ends.bind hend (g := fun n (r : Data × YState) => ySeq X n (acc ++ [r.1]) r.2) h2) key
      | running => exact id
    | error => intro h1; exact Ends.shift (Ends.bind_error h1) key
    | panic => intro h1; exact Ends.shift (Ends.bind_panic h1) key
    | running => exact id
  · intro _ env A hA acc c E x rest t0 he
    simp only [eventsM, List.nil_append, List.cons.injEq] at he
    obtain ⟨rfl, rfl⟩ := he
    rw [dataM]
    refine ⟨A, t0 ++ recd x, hA, Ends.shift (f := fun _ => _) (.const _) (fun n => ?_)⟩
    rw [show ([] : List YEvent) ++ x :: rest = x :: rest from rfl, yMap_end X n acc x _ _ A _ (pop_input x rest), track_cons]
  · rintro ⟨k, v⟩ r ⟨ihk, ihv⟩ ih2 h env A hA acc c E x rest t0 he
    simp only [tameM] at h
    obtain ⟨c0, E0, h0, hop⟩ := events_cons k
    obtain ⟨c2, E2, hv2, -⟩ := events_cons v
    obtain ⟨c1, E1, hE⟩ := split_last (eventsM r) .mapEnd
    have hapk : k.anchor = "" ∨ NotAlias c2 := h.2.2.1.imp id (head_notAlias hv2)
    have hapv : v.anchor = "" ∨ NotAlias c1 := by
      cases r with
      | nil =>
        simp only [eventsM, List.nil_append, List.cons.injEq] at hE
        exact .inr (hE.1 ▸ trivial)
      | cons u r =>
        obtain ⟨uk, uv⟩ := u
        refine (h.2.2.2.1 _ rfl).imp id (fun hu => ?_)
        obtain ⟨cu, Eu, hu0, -⟩ := events_cons uk
        rw [eventsM, hu0] at hE
        simp only [List.cons_append, List.cons.injEq] at hE
        exact hE.1 ▸ head_notAlias hu0 hu
    rw [eventsM, h0, hv2, List.append_assoc, List.append_assoc, hE] at he
    simp only [List.cons_append, List.cons.injEq] at he
    obtain ⟨rfl, rfl⟩ := he
    have h1 := ihk h.1 env A hA c0 E0 c2 (E2 ++ c1 :: (E1 ++ x :: rest)) t0 hapk h0
    have hsplit : E0 ++ c2 :: (E2 ++ c1 :: E1) ++ x :: rest = E0 ++ c2 :: (E2 ++ c1 :: (E1 ++ x :: rest)) := by simp
    rw [dataM, hsplit]
    have key := fun n => yMap_open X n acc c0 (E0 ++ c2 :: (E2 ++ c1 :: (E1 ++ x :: rest)), none) A [t0] hop
    revert h1
    cases k.data X env with
    | error => intro h1; exact Ends.shift (Ends.bind_error h1) key
    | panic => intro h1; exact Ends.shift (Ends.bind_panic h1) key
    | running => exact id
    | ok d =>
      obtain ⟨dk, env'⟩ := d
      rintro ⟨A', t0', hA', hend⟩
      have h2 := ihv h.2.1 env' A' hA' c2 E2 c1 (E1 ++ x :: rest) t0' hapv hv2
      simp only [YRes.bind]
      let G := fun n (q : Data × YState) => (yValue X n q.2).bind fun v => (assignKey acc q.1 v.1).bind fun m => yMap X n m v.2
      have step : ∀ {q}, Ends (fun n => G n (dk, mkY c2 (E2 ++ c1 :: (E1 ++ x :: rest), none) A' [t0'])) q →
          Ends (fun n => yMap X n acc (mkY c0 (E0 ++ c2 :: (E2 ++ c1 :: (E1 ++ x :: rest)), none) A [t0])) q :=
        fun hq => Ends.shift (Ends.bind hend (g := G) hq) key
      revert h2
      cases v.data X env' with
      | error => intro h2; exact step (Ends.bind_error h2)
      | panic => intro h2; exact step (Ends.bind_panic h2)
      | running => exact id
      | ok d2 =>
        obtain ⟨dv, env2⟩ := d2
        rintro ⟨A2, t2, hA2, hend2⟩
        simp only
        cases hm : assignKey acc dk dv with
        | error => simp [assignKey] at hm; split at hm <;> cases hm
        | running => simp [assignKey] at hm; split at hm <;> cases hm
        | panic =>
          refine step (Ends.bind hend2 ?_)
          simp only [id, hm, YRes.bind]
          exact .const _
        | ok m1 =>
          have h3 := ih2 h.2.2.2.2 env2 A2 hA2 m1 c1 E1 x rest t2 hE
          have step2 : ∀ {q}, Ends (fun n => yMap X n m1 (mkY c1 (E1 ++ x :: rest, none) A2 [t2])) q →
              Ends (fun n => yMap X n acc (mkY c0 (E0 ++ c2 :: (E2 ++ c1 :: (E1 ++ x :: rest)), none) A [t0])) q := by
            intro q hq
            refine step (Ends.bind hend2 ?_)
            simp only [id, hm, YRes.bind]
            exact hq
          simp only
          revert h3
          cases dataM X r m1 env2 with
          | error => exact fun h3 => step2 h3
          | panic => exact fun h3 => step2 h3
          | running => exact id
          | ok d3 =>
            rintro ⟨A3, t3, hA3, hend3⟩
            exact ⟨A3, t3, hA3, step2 hend3⟩
  · intro k v hk hv; exact ⟨hk, hv⟩

/-! ### documents -/

theorem yDocument_ends (X : YLib) (t : YTree) (ht : TameDoc t) (env : YEnv) (A) (hA : AnchorsOk X env A) (x : YEvent) (rest t0) :
    ReadC X (fun n => yDocument X n (mkY .docStart (t.events ++ .docEnd :: x :: rest, none) A [t0])) (t.data X env) id x rest := by
  obtain ⟨c, E, hE, hop⟩ := events_cons t
  have h1 := nextEvent_mkY A [t0] (c := .docStart) (by simp) (pop_input c (E ++ .docEnd :: x :: rest))
  rw [track_cons] at h1
  have h2 := readC_all X t ht.1 env A hA c E .docEnd (x :: rest) (t0 ++ recd c) (.inr trivial) hE
  have key : ∀ n, yDocument X n (mkY .docStart (t.events ++ .docEnd :: x :: rest, none) A [t0]) =
      (yValue X n (mkY c (E ++ .docEnd :: x :: rest, none) A [t0 ++ recd c])).bind (fun r =>
        if r.2.cur = .docEnd then (nextEvent r.2).bind fun s => .ok (r.1, s) else .error) := by
    intro n
    unfold yDocument
    rw [if_pos (show (mkY .docStart (t.events ++ .docEnd :: x :: rest, none) A [t0]).cur = .docStart from rfl), hE, List.cons_append, h1]
    simp only [YRes.bind, yParse_eq X n t c E _ _ _ hE ht.2]
  revert h2
  cases t.data X env with
  | ok d =>
    rintro ⟨A', t0', hA', hend⟩
    refine ⟨A', t0' ++ recd x, hA', Ends.congr (Ends.bind hend (g := fun _ (r : Data × YState) =>
      if r.2.cur = .docEnd then (nextEvent r.2).bind fun s => .ok (r.1, s) else .error) ?_) key⟩
    refine ⟨0, fun n _ => ?_⟩
    have h3 := nextEvent_mkY A' [t0'] (c := .docEnd) (by simp) (pop_input x rest)
    rw [track_cons] at h3
    have hcur : (mkY .docEnd (x :: rest, none) A' [t0']).cur = .docEnd := rfl
    simp only [hcur, if_true, h3, YRes.bind]
  | error => intro h2; exact Ends.congr (Ends.bind_error h2) key
  | panic => intro h2; exact Ends.congr (Ends.bind_panic h2) key
  | running => exact id

theorem docEvents_cons (r : List YTree) : ∃ c E, docEvents r = c :: E ∧ ((r = [] ∧ c = .streamEnd) ∨ (r ≠ [] ∧ c = .docStart)) := by
  cases r with
  | nil => exact ⟨_, _, rfl, .inl ⟨rfl, rfl⟩⟩
  | cons t r => exact ⟨_, _, rfl, .inr ⟨by simp, rfl⟩⟩

theorem yDocuments_ends (X : YLib) (docs : List YTree) (hne : docs ≠ []) (h : ∀ t ∈ docs, TameDoc t) :
    ∀ (env : YEnv) A, AnchorsOk X env A → ∀ c E t0, docEvents docs = c :: E →
      Ends (fun n => yDocuments X n (mkY c (E, none) A [t0])) (dataDocs X docs env) := by
  induction docs with
  | nil => exact absurd rfl hne
  | cons t r ih =>
    intro env A hA c E t0 he
    simp only [docEvents, List.cons.injEq] at he
    obtain ⟨rfl, rfl⟩ := he
    obtain ⟨c1, E1, hE, hc1⟩ := docEvents_cons r
    rw [hE]
    have h1 := yDocument_ends X t (h t (by simp)) env A hA c1 E1 t0
    let G : Nat → Data × YState → YRes (List Data) := fun n r =>
      if r.2.cur = .streamEnd then .ok [r.1] else (yDocuments X n r.2).bind fun ds => .ok (r.1 :: ds)
    have key : ∀ n, yDocuments X (n + 1) (mkY .docStart (t.events ++ .docEnd :: c1 :: E1, none) A [t0]) =
        (yDocument X n (mkY .docStart (t.events ++ .docEnd :: c1 :: E1, none) A [t0])).bind (G n) := fun n => by rw [yDocuments]
    rw [dataDocs]
    revert h1
    cases t.data X env with
    | error => intro h1; exact Ends.shift (Ends.bind_error h1) key
    | panic => intro h1; exact Ends.shift (Ends.bind_panic h1) key
    | running => exact False.elim
    | ok d =>
      obtain ⟨v, env'⟩ := d
      rintro ⟨A', t0', hA', hend⟩
      refine Ends.shift (Ends.bind hend (g := G) ?_) key
      simp only [YRes.bind, G]
      rcases hc1 with ⟨rfl, rfl⟩ | ⟨hr, rfl⟩
      · refine ⟨0, fun n _ => ?_⟩
        have hcur : (mkY .streamEnd (E1, none) A' [t0']).cur = .streamEnd := rfl
        simp [hcur, dataDocs]
      · have h2 := ih hr (fun t ht => h t (List.mem_cons_of_mem _ ht)) env' A' hA' .docStart E1 t0' hE
        have hcur : ¬ (mkY .docStart (E1, none) A' [t0']).cur = .streamEnd := by simp [mkY]
        simp only [hcur, if_false, id]
        revert h2
        cases dataDocs X r env' with
        | ok ds => intro h2; exact Ends.bind h2 (g := fun _ ds => .ok (v :: ds)) (.const _)
        | error => intro h2; exact Ends.bind_error h2
        | panic => intro h2; exact Ends.bind_panic h2
        | running =>
          rintro ⟨N, h2⟩
          exact ⟨N, fun n hn => by simp only [h2 n hn, YRes.bind]⟩

/-- **C72**: the documents of a stream are read as the data they stand for: wherever anchors are used in a supported way the reader ends, and
its result is given by the meaning of the nodes: an unknown alias is an error, a collection used as key ends the program. -/
theorem read_documents (X : YLib) (docs : List YTree) (hne : docs ≠ []) (h : ∀ t ∈ docs, TameDoc t) :
    ∃ N, ∀ n, N ≤ n → yDecode X n (.streamStart :: docEvents docs) = dataDocs X docs (fun _ => none) := by
  obtain ⟨c, E, hE, -⟩ := docEvents_cons docs
  have := yDocuments_ends X docs hne h (fun _ => none) [] (fun n => .inl ⟨rfl, rfl⟩) c E [.streamStart, c] hE
  refine Ends.congr this (fun n => ?_)
  rw [hE]
  rfl

end Spiff
