import Verif.Spec.Projection
import Verif.Props.Refs2
import Verif.Props.Mapping
import Verif.Props.Lambda3
import Verif.Props.Delay6
/-
C70: projections.
-/
namespace Spiff
open Spec

theorem projAll_cases (src : String) (body : Val Ex → Ev) (i : Info) : ∀ (vs : List (Val Ex)) (acc : List (Node Ex)),
    (∀ o, projAll src body i vs acc = o → (∀ w j, o = .val w j ↔ j = i ∧ ∃ ns, w = .list (acc.reverse ++ ns) ∧
      List.Forall₂ (fun v n => ∃ k, body v = .val n.val k ∧ n = Node.new n.val (dynSource src)) vs ns) ∧
      ((∃ j, o = .fail j) ↔ ∃ pre v post, vs = pre ++ v :: post ∧ (∀ u ∈ pre, ∃ w k, body u = .val w k) ∧ ∃ k, body v = .fail k) ∧
      (o = .crash ↔ ∃ pre v post, vs = pre ++ v :: post ∧ (∀ u ∈ pre, ∃ w k, body u = .val w k) ∧ body v = .crash)) := by
  intro vs
  induction vs with
  | nil =>
    rintro acc o rfl
    refine ⟨fun w j => ⟨?_, ?_⟩, ⟨?_, ?_⟩, ⟨?_, ?_⟩⟩
    · intro h; cases h; exact ⟨rfl, [], by simp, .nil⟩
    · rintro ⟨rfl, ns, rfl, h⟩; cases h; simp [projAll]
    · rintro ⟨j, h⟩; cases h
    · rintro ⟨pre, v, post, h, _⟩; simp at h
    · intro h; cases h
    · rintro ⟨pre, v, post, h, _⟩; simp at h
  | cons v r ih =>
    intro acc o ho
    have split : ∀ (P : Val Ex → Prop), (∃ w k, body v = .val w k) → ¬ P v →
        ((∃ pre u post, v :: r = pre ++ u :: post ∧ (∀ x ∈ pre, ∃ w k, body x = .val w k) ∧ P u) ↔
          ∃ pre u post, r = pre ++ u :: post ∧ (∀ x ∈ pre, ∃ w k, body x = .val w k) ∧ P u) := by
      intro P hv hp
      constructor
      · rintro ⟨pre, u, post, h1, h2, h3⟩
        cases pre with
        | nil => simp at h1; rw [h1.1] at hp; exact absurd h3 hp
        | cons a pre => simp at h1; exact ⟨pre, u, post, h1.2, fun x hx => h2 x (List.mem_cons_of_mem _ hx), h3⟩
      · rintro ⟨pre, u, post, h1, h2, h3⟩
        refine ⟨v :: pre, u, post, by simp [h1], ?_, h3⟩
        intro x hx
        rcases List.mem_cons.1 hx with rfl | hx
        · exact hv
        · exact h2 x hx
    have stop : ∀ (P : Val Ex → Prop), (∀ w k, body v ≠ .val w k) →
        ((∃ pre u post, v :: r = pre ++ u :: post ∧ (∀ x ∈ pre, ∃ w k, body x = .val w k) ∧ P u) ↔ P v) := by
      intro P hv
      constructor
      · rintro ⟨pre, u, post, h1, h2, h3⟩
        cases pre with
        | nil => simp at h1; rw [h1.1]; exact h3
        | cons a pre =>
          simp at h1
          obtain ⟨w, k, h⟩ := h2 a List.mem_cons_self
          rw [← h1.1] at h
          exact absurd h (hv w k)
      · intro h; exact ⟨[], v, r, rfl, by simp, h⟩
    cases hb : body v with
    | crash =>
      simp only [projAll, hb] at ho
      subst ho
      refine ⟨fun w j => ⟨nofun, ?_⟩, ?_, ?_⟩
      · rintro ⟨_, ns, _, h⟩
        cases h with
        | cons h _ => obtain ⟨k, h, _⟩ := h; rw [hb] at h; cases h
      · rw [stop (fun u => ∃ k, body u = .fail k) (by simp [hb])]
        simp [hb]
      · rw [stop (fun u => body u = .crash) (by simp [hb])]
        simp [hb]
    | fail k =>
      simp only [projAll, hb] at ho
      subst ho
      refine ⟨fun w j => ⟨nofun, ?_⟩, ?_, ?_⟩
      · rintro ⟨_, ns, _, h⟩
        cases h with
        | cons h _ => obtain ⟨k, h, _⟩ := h; rw [hb] at h; cases h
      · rw [stop (fun u => ∃ k, body u = .fail k) (by simp [hb])]
        simp [hb]
      · rw [stop (fun u => body u = .crash) (by simp [hb])]
        simp [hb]
    | val w k =>
      simp only [projAll, hb] at ho
      obtain ⟨h1, h2, h3⟩ := ih _ o ho
      refine ⟨fun x j => ?_, ?_, ?_⟩
      · rw [h1 x j]
        apply and_congr Iff.rfl
        constructor
        · rintro ⟨ns, rfl, h⟩
          exact ⟨Node.new w (dynSource src) :: ns, by simp, .cons ⟨k, hb, rfl⟩ h⟩
        · rintro ⟨ns, rfl, h⟩
          cases h with
          | @cons _ n _ ns h ht =>
            obtain ⟨k', h, hn⟩ := h
            rw [hb] at h
            cases h
            exact ⟨ns, by rw [List.reverse_cons, List.append_assoc, List.singleton_append, ← hn], ht⟩
      · rw [h2, split (fun u => ∃ k, body u = .fail k) ⟨w, k, hb⟩ (by simp [hb])]
      · rw [h3, split (fun u => body u = .crash) ⟨w, k, hb⟩ (by simp [hb])]

theorem eval_proj (X : EvLib) (e q : Ex) (b : Bind) (loc : Bool) :
    eval X (Ex.proj e q) b loc = projEv e (isProjValue q) b.source (eval X e b false) (entryEval X q b loc) := by
  simp only [eval, evalL, sem]
  rfl

theorem eval_projValue (X : EvLib) (b : Bind) (loc : Bool) : eval X (.node .projValue []) b loc = .val b.proj {} := by
  simp only [eval, evalL, sem]

theorem sortedVals_entries {m : List (String × Node Ex)} (hm : MapOK m) : Entries (.map m) (sortedVals m) := by
  refine .map m (sortedKeys m) _ (sorted_strict (sortStr_sorted _) ((sortStr_perm _).nodup_iff.2 hm)) ?_ ?_
  · intro k
    rw [sortedKeys, (sortStr_perm _).mem_iff]
    simp [mkeys]
  · have hk : ∀ k ∈ sortedKeys m, ∃ n, (k, n) ∈ m := by
      intro k hk
      rw [sortedKeys, (sortStr_perm _).mem_iff] at hk
      simpa [mkeys] using hk
    unfold sortedVals
    generalize sortedKeys m = ks at hk
    induction ks with
    | nil => exact .nil
    | cons k r ih =>
      obtain ⟨n, hn⟩ := hk k List.mem_cons_self
      refine .cons ⟨n, hn, ?_⟩ (ih (fun x hx => hk x (List.mem_cons_of_mem _ hx)))
      simp only [mget_of_mem hm hn]

theorem entries_unique {m : List (String × Node Ex)} (hm : MapOK m) {r : Val Ex} (hr : r = .map m) {vs ws : List (Val Ex)}
    (h : Entries r vs) (h' : Entries r ws) : vs = ws := by
  cases h with
  | list l => cases hr
  | map m1 ks vs h1 h2 h3 =>
    cases hr
    cases h' with
    | map _ ks' ws h1' h2' h3' =>
      have : ks = ks' := by
        have hnd : ∀ l : List String, l.Pairwise (· < ·) → l.Nodup :=
          fun l h => h.imp (fun {a b} (h : a < b) (e : a = b) => String.lt_irrefl b (e ▸ h))
        have hp : ks.Perm ks' := (List.perm_ext_iff_of_nodup (hnd _ h1) (hnd _ h1')).2
          (fun k => (h2 k).trans (h2' k).symm)
        exact hp.eq_of_pairwise (fun a b _ _ h h' => absurd h' (String.lt_asymm h)) h1 h1'
      subst this
      clear h1 h2 h1' h2'
      induction h3 generalizing ws with
      | nil => cases h3'; rfl
      | cons hd _ ih =>
        cases h3' with
        | cons hd' ht' =>
          obtain ⟨n, h4, rfl⟩ := hd
          obtain ⟨n', h5, rfl⟩ := hd'
          have := (mget_of_mem hm h4).symm.trans (mget_of_mem hm h5)
          cases this
          rw [ih ht']

/-- **C70** (entries): `e.[*]` followed by a chain applies the chain to every entry of the list (or map) `e` evaluates to. The result is the
list of the results in the order of the entries (for maps: of the keys); it fails iff the chain fails for an entry, after having succeeded
for those before. It is never left for later itself. -/
theorem projection_spec (X : EvLib) (e chain : Ex) (b : Bind) (loc : Bool) (r : Val Ex) (i : Info) (vs : List (Val Ex))
    (he : eval X e b false = .val r i) (hv : Entries r vs) (hm : ∀ m, r = .map m → MapOK m)
    (hc : isProjValue chain = false ∨ ∃ m, r = .map m) :
    (∀ w, (eval X (Ex.proj e chain) b loc).Value w ↔ ∃ ns, w = .list ns ∧
      List.Forall₂ (fun v n => ∃ j, entryEval X chain b loc v = .val n.val j ∧ n = Node.new n.val (dynSource b.source)) vs ns) ∧
    ((eval X (Ex.proj e chain) b loc).Fails ↔ ∃ pre v post, vs = pre ++ v :: post ∧
      (∀ u ∈ pre, ∃ w j, entryEval X chain b loc u = .val w j) ∧ (entryEval X chain b loc v).Fails) ∧
    ¬ (eval X (Ex.proj e chain) b loc).Left := by
  have hev : eval X (Ex.proj e chain) b loc = projAll b.source (entryEval X chain b loc) i vs [] := by
    rw [eval_proj, he]
    cases hv with
    | list l =>
      have : isProjValue chain = false := by
        rcases hc with h | ⟨m, h⟩
        · exact h
        · cases h
      simp only [projEv, resolve, joinInfo, this, Bool.false_eq_true, if_false]
    | map m ks _ h1 h2 h3 =>
      rw [entries_unique (hm m rfl) rfl (.map m ks vs h1 h2 h3) (sortedVals_entries (hm m rfl))]
      simp only [projEv, resolve, joinInfo]
  obtain ⟨h1, h2, h3⟩ := projAll_cases b.source (entryEval X chain b loc) i vs [] _ rfl
  rw [hev]
  refine ⟨fun w => ⟨?_, ?_⟩, h2, ?_⟩
  · rintro ⟨j, hj, _⟩
    obtain ⟨_, ns, hw, hn⟩ := (h1 w j).1 hj
    exact ⟨ns, by simpa using hw, hn⟩
  · rintro ⟨ns, rfl, hn⟩
    exact ⟨i, (h1 _ i).2 ⟨rfl, ns, by simp, hn⟩, nofun⟩
  · rintro ⟨e', j, hj⟩
    obtain ⟨_, ns, hw, _⟩ := (h1 _ j).1 hj
    cases hw

/-- **C70** (no chain): `e.[*]` of a list, as well as a slice `e.[s..t]` (which is parsed as a projection of the slice), is the list itself;
of a map it is the list of its values in the order of the keys. -/
theorem projection_plain (X : EvLib) (e : Ex) (b : Bind) (loc : Bool) (r : Val Ex) (i : Info) (he : eval X e b false = .val r i)
    (hm : ∀ m, r = .map m → MapOK m) :
    (∀ l, r = .list l → eval X (Ex.proj e (.node .projValue [])) b loc = .val (.list l) i) ∧
    (∀ m vs, r = .map m → Entries r vs → (eval X (Ex.proj e (.node .projValue [])) b loc).Value
      (.list (vs.map (fun v => Node.new v (dynSource b.source))))) := by
  constructor
  · rintro l rfl
    rw [eval_proj, he]
    rfl
  · rintro m vs rfl hv
    have h := projection_spec X e (.node .projValue []) b loc _ i vs he hv hm (.inr ⟨m, rfl⟩)
    rw [h.1]
    refine ⟨_, rfl, ?_⟩
    clear h hv
    induction vs with
    | nil => exact .nil
    | cons v r ih => exact .cons ⟨{}, eval_projValue .., rfl⟩ ih

/-- **C70** (other values): nothing else can be projected; and it fails if `e` fails. -/
theorem projection_other (X : EvLib) (e chain : Ex) (b : Bind) (loc : Bool) :
    (∀ v, (eval X e b false).Value v → (∀ l, v ≠ .list l) → (∀ m, v ≠ .map m) → (eval X (Ex.proj e chain) b loc).Fails) ∧
    ((eval X e b false).Fails → (eval X (Ex.proj e chain) b loc).Fails) := by
  rw [eval_proj]
  constructor
  · rintro v ⟨i, h, hx⟩ hl hm
    rw [h]
    cases v <;> simp only [projEv, resolve, joinInfo, Info.error] <;>
      first | exact ⟨_, rfl⟩ | exact absurd rfl (hx _) | exact absurd rfl (hl _) | exact absurd rfl (hm _)
  · rintro ⟨i, h⟩
    rw [h]
    exact ⟨_, rfl⟩

theorem isProjValue_path (path : List String) : isProjValue (pathChain path) = false := rfl

/-- the outcome of the chain `.a.b` for a finished entry -/
theorem entry_path (X : EvLib) (path : List String) (hp : path ≠ []) (b : Bind) (loc : Bool) (v : Val Ex) (hf : ¬ Unfinished X.ctl v)
    (hs : SmallLists X.ctl (Node.new v "dynaml")) :
    (∀ w, (entryEval X (pathChain path) b loc v).Value w ↔ PathValue X.ctl (Within X.ctl (Node.new v "dynaml")) path (!loc) w) ∧
    ((entryEval X (pathChain path) b loc v).Left ↔ PathLater X.ctl (Within X.ctl (Node.new v "dynaml")) path (!loc)) ∧
    ((entryEval X (pathChain path) b loc v).Fails ↔ PathMissing X.ctl (Within X.ctl (Node.new v "dynaml")) path) := by
  have h := (qualified_spec X (.node .projValue []) path hp { b with proj := v } loc v {} (eval_projValue ..) (complete_usable hf) hs).2
    (.inr (.inr hf))
  simpa [entryEval] using h

theorem reaches_append {ctl raw : Bool} {a c : Node Ex} {p q : List String} (h : Reaches ctl raw a (p ++ q) c) :
    ∃ m, Reaches ctl raw a p m ∧ Reaches ctl raw m q c := by
  induction p generalizing a with
  | nil => exact ⟨a, .here a, h⟩
  | cons s p ih =>
    cases h with
    | step _ x _ _ _ hs hr =>
      obtain ⟨m, h1, h2⟩ := ih hr
      exact ⟨m, .step _ _ _ _ _ hs h1, h2⟩

theorem reaches_finished {ctl : Bool} {a c : Node Ex} {p : List String} (h : Reaches ctl false a p c) (hf : ¬ Unfinished ctl a.val) :
    ¬ Unfinished ctl c.val := by
  induction h with
  | here n => exact hf
  | step n c r s p hs _ ih =>
    apply ih
    intro hu
    apply hf
    cases hs with
    | field _ m _ hv _ hc => rw [hv]; exact .field m _ c (mget_some_mem hc) hu
    | index _ l _ i j hv _ _ _ _ hc => rw [hv]; exact .entry l c (List.mem_of_getElem? hc) hu
    | named _ l bf af _ key nm hv _ _ _ hl _ _ => rw [hv]; exact .entry l c (by rw [hl]; simp) hu

theorem outOfBounds_append {ctl : Bool} {a : Node Ex} {p q : List String} (h : OutOfBounds ctl a p) : OutOfBounds ctl a (p ++ q) := by
  obtain ⟨p', s, q', n, l, i, h1, h2⟩ := h
  exact ⟨p', s, q' ++ q, n, l, i, by rw [h1]; simp, h2⟩

theorem pathValue_finished {ctl : Bool} {v : Val Ex} (hf : ¬ Unfinished ctl v) (path : List String) (whole : Bool) (w : Val Ex) :
    PathValue ctl (Within ctl (Node.new v "dynaml")) path whole w ↔ ∃ c, Reaches ctl false (Node.new v "dynaml") path c ∧ c.val = w := by
  constructor
  · rintro ⟨_, n, h, hv, _⟩; exact ⟨n, h, hv⟩
  · rintro ⟨c, h, rfl⟩
    have hfc := fun {p : List String} {c : Node Ex} (h : Reaches ctl false (Node.new v "dynaml") p c) => reaches_finished h hf
    refine ⟨?_, c, h, rfl, fun _ => hfc h⟩
    rintro q _ ⟨t, rfl⟩ _
    obtain ⟨m, h1, _⟩ := reaches_append h
    exact ⟨m, h1, complete_usable (hfc h1)⟩

theorem pathLater_finished {ctl : Bool} {v : Val Ex} (hf : ¬ Unfinished ctl v) (path : List String) (whole : Bool) :
    ¬ PathLater ctl (Within ctl (Node.new v "dynaml")) path whole := by
  have hfc := fun {p : List String} {c : Node Ex} (h : Reaches ctl false (Node.new v "dynaml") p c) => reaches_finished h hf
  rintro (⟨q, c, _, _, _, h, hu⟩ | ⟨_, _, n, h, hu⟩)
  · exact hu (complete_usable (hfc h))
  · exact hfc h hu

theorem pathMissing_finished {ctl : Bool} {v : Val Ex} (hf : ¬ Unfinished ctl v) (hs : SmallLists ctl (Node.new v "dynaml")) (path : List String) :
    PathMissing ctl (Within ctl (Node.new v "dynaml")) path ↔
      (∀ c, ¬ Reaches ctl false (Node.new v "dynaml") path c) ∧ ¬ OutOfBounds ctl (Node.new v "dynaml") path := by
  have hfc := fun {p : List String} {c : Node Ex} (h : Reaches ctl false (Node.new v "dynaml") p c) => reaches_finished h hf
  constructor
  · rintro ⟨q, _, ⟨t, rfl⟩, _, hm, hb⟩
    refine ⟨fun c h => ?_, ?_⟩
    · obtain ⟨m, h1, _⟩ := reaches_append h
      exact hm m h1
    · rintro ⟨p, s, q', n, l, i, h1, h2, h3⟩
      rcases Nat.lt_or_ge p.length q.length with hlt | hge
      · have hp : p ++ [s] <+: q := by
          apply List.prefix_of_prefix_length_le (l₃ := q ++ t) _ (List.prefix_append _ _) (by simp; omega)
          rw [h1]; exact ⟨q', by simp⟩
        obtain ⟨u, rfl⟩ := hp
        exact hb ⟨p, s, u, n, l, i, by simp, h2, h3⟩
      · have hp : q <+: p := by
          apply List.prefix_of_prefix_length_le (l₃ := q ++ t) (List.prefix_append _ _) _ hge
          rw [h1]; exact List.prefix_append _ _
        obtain ⟨u, rfl⟩ := hp
        obtain ⟨m, h4, _⟩ := reaches_append h2
        exact hm m h4
  · rintro ⟨hr, hb⟩
    suffices H : ∀ k ≤ path.length, (∃ c, Reaches ctl false (Node.new v "dynaml") (path.take k) c) ∨
        PathMissing ctl (Within ctl (Node.new v "dynaml")) path by
      rcases H path.length (le_refl _) with ⟨c, h⟩ | h
      · rw [List.take_length] at h; exact absurd h (hr c)
      · exact h
    intro k
    induction k with
    | zero => intro _; exact .inl ⟨_, .here _⟩
    | succ k ih =>
      intro hk
      rcases ih (by omega) with ⟨c, h⟩ | h
      · have hpre : path.take (k + 1) <+: path := List.take_prefix _ _
        have hD := within_findR ctl (Node.new v "dynaml") hs (path.take (k + 1)) (findR ctl false (Node.new v "dynaml") (path.take (k + 1)))
        have hD := hD.2 rfl
        generalize findR ctl false (Node.new v "dynaml") (path.take (k + 1)) = r at hD
        cases r with
        | found c' => exact .inl ⟨c', hD⟩
        | panic =>
          obtain ⟨t, ht⟩ := hpre
          refine absurd ?_ hb
          rw [← ht]
          exact outOfBounds_append hD
        | missing =>
          refine .inr ⟨path.take (k + 1), ?_, hpre, ?_, hD⟩
          · intro h0; have := congrArg List.length h0; rw [List.length_take] at this; simp at this; rw [this] at hk; simp at hk
          · intro q hq hqp hne
            have hlen : q.length ≤ k := by
              have h1 := hqp.length_le
              rw [List.length_take] at h1
              rcases Nat.lt_or_ge q.length (k + 1) with h2 | h2
              · omega
              · exact absurd (hqp.eq_of_length (by rw [List.length_take]; omega)) (hne rfl)
            have : q <+: path.take k := by
              apply List.prefix_of_prefix_length_le (l₃ := path) (hqp.trans (List.take_prefix _ _)) (List.take_prefix _ _)
              rw [List.length_take]; omega
            obtain ⟨t, ht⟩ := this
            rw [← ht] at h
            obtain ⟨m, h1, _⟩ := reaches_append h
            exact ⟨m, h1, complete_usable (hfc h1)⟩
      · exact .inr h

/-- **C70** (paths): for a finished list or map `e.[*].a.b` is the list of the values at the path `a.b` of the entries, and fails iff
the path leads nowhere for some entry. (Entries for which the path uses an index below the bounds crash, see C15; they are excluded.) -/
theorem projection_path (X : EvLib) (e : Ex) (path : List String) (hp : path ≠ []) (b : Bind) (loc : Bool) (r : Val Ex) (i : Info)
    (vs : List (Val Ex)) (he : eval X e b false = .val r i) (hv : Entries r vs) (hm : ∀ m, r = .map m → MapOK m)
    (hf : ¬ Unfinished X.ctl r) (hs : ∀ v ∈ vs, SmallLists X.ctl (Node.new v "dynaml"))
    (hb : ∀ v ∈ vs, ¬ OutOfBounds X.ctl (Node.new v "dynaml") path) :
    (∀ w, (eval X (Ex.proj e (pathChain path)) b loc).Value w ↔ ∃ ns, w = .list ns ∧
      List.Forall₂ (fun v n => (∃ c, Reaches X.ctl false (Node.new v "dynaml") path c ∧ c.val = n.val) ∧
        n = Node.new n.val (dynSource b.source)) vs ns) ∧
    ((eval X (Ex.proj e (pathChain path)) b loc).Fails ↔ ∃ v ∈ vs, ∀ c, ¬ Reaches X.ctl false (Node.new v "dynaml") path c) := by
  have hfin : ∀ v ∈ vs, ¬ Unfinished X.ctl v := by
    intro v hvm hu
    apply hf
    cases hv with
    | list l =>
      obtain ⟨n, hn, rfl⟩ := List.mem_map.1 hvm
      exact .entry l n hn hu
    | map m ks _ _ _ h3 =>
      obtain ⟨k, _, n, hn, rfl⟩ := lam_forall2_mem h3 hvm
      exact .field m k n hn hu
  obtain ⟨h1, h2, _⟩ := projection_spec X e (pathChain path) b loc r i vs he hv hm (.inl rfl)
  have hval : ∀ v ∈ vs, ∀ w, (∃ j, entryEval X (pathChain path) b loc v = .val w j) ↔
      ∃ c, Reaches X.ctl false (Node.new v "dynaml") path c ∧ c.val = w := by
    intro v hvm w
    obtain ⟨g1, g2, _⟩ := entry_path X path hp b loc v (hfin v hvm) (hs v hvm)
    rw [← pathValue_finished (hfin v hvm) path (!loc) w, ← g1]
    constructor
    · rintro ⟨j, hj⟩
      refine ⟨j, hj, ?_⟩
      rintro x rfl
      exact pathLater_finished (hfin v hvm) path (!loc) (g2.1 ⟨x, j, hj⟩)
    · rintro ⟨j, hj, _⟩; exact ⟨j, hj⟩
  have hfail : ∀ v ∈ vs, (entryEval X (pathChain path) b loc v).Fails ↔ ∀ c, ¬ Reaches X.ctl false (Node.new v "dynaml") path c := by
    intro v hvm
    obtain ⟨_, _, g3⟩ := entry_path X path hp b loc v (hfin v hvm) (hs v hvm)
    rw [g3, pathMissing_finished (hfin v hvm) (hs v hvm)]
    exact ⟨fun h => h.1, fun h => ⟨h, hb v hvm⟩⟩
  constructor
  · intro w
    rw [h1]
    have key : ∀ (us : List (Val Ex)) (ns : List (Node Ex)), (∀ u ∈ us, u ∈ vs) →
        (List.Forall₂ (fun v n => ∃ j, entryEval X (pathChain path) b loc v = .val n.val j ∧ n = Node.new n.val (dynSource b.source)) us ns ↔
        List.Forall₂ (fun v n => (∃ c, Reaches X.ctl false (Node.new v "dynaml") path c ∧ c.val = n.val) ∧
          n = Node.new n.val (dynSource b.source)) us ns) := by
      intro us
      induction us with
      | nil =>
        intro ns _
        constructor <;> intro h <;> cases h <;> exact .nil
      | cons u r ih =>
        intro ns hus
        cases ns with
        | nil => constructor <;> intro h <;> cases h
        | cons n ns =>
          rw [List.forall₂_cons, List.forall₂_cons, ih ns (fun x hx => hus x (List.mem_cons_of_mem _ hx)),
            ← hval u (hus u List.mem_cons_self) n.val]
          simp only [exists_and_right]
    exact exists_congr fun ns => and_congr Iff.rfl (key vs ns (fun _ h => h))
  · rw [h2]
    constructor
    · rintro ⟨pre, v, post, rfl, _, hvf⟩
      exact ⟨v, by simp, (hfail v (by simp)).1 hvf⟩
    · rintro ⟨v, hvm, hn⟩
      have hvf := (hfail v hvm).2 hn
      clear h1 h2 hv hn
      suffices H : ∀ us : List (Val Ex), (∀ u ∈ us, u ∈ vs) → v ∈ us → ∃ pre x post, us = pre ++ x :: post ∧
          (∀ u ∈ pre, ∃ w j, entryEval X (pathChain path) b loc u = .val w j) ∧ (entryEval X (pathChain path) b loc x).Fails from
        H vs (fun _ h => h) hvm
      intro us
      induction us with
      | nil => intro _ h; cases h
      | cons u r ih =>
        intro hus hvu
        by_cases hu : ∃ c, Reaches X.ctl false (Node.new u "dynaml") path c
        · obtain ⟨c, hc⟩ := hu
          have hex : ∃ w j, entryEval X (pathChain path) b loc u = .val w j := ⟨c.val, (hval u (hus u List.mem_cons_self) c.val).2 ⟨c, hc, rfl⟩⟩
          rcases List.mem_cons.1 hvu with rfl | hvr
          · obtain ⟨w, j, hw⟩ := hex
            obtain ⟨k, hk⟩ := hvf
            rw [hk] at hw; cases hw
          · obtain ⟨pre, x, post, e1, e2, e3⟩ := ih (fun y hy => hus y (List.mem_cons_of_mem _ hy)) hvr
            refine ⟨u :: pre, x, post, by simp [e1], ?_, e3⟩
            intro y hy
            rcases List.mem_cons.1 hy with rfl | hy
            · exact hex
            · exact e2 y hy
        · exact ⟨[], u, r, rfl, by simp, (hfail u (hus u List.mem_cons_self)).2 (fun c hc => hu ⟨c, hc⟩)⟩

/-- **C70** (defect): as long as the list is not resolved, a projection fails instead of being left for later. So the alternative of
`e.[*]… || d` is taken, although `e` has a value later. -/
theorem projection_unresolved_defect (X : EvLib) (e chain d : Ex) (b : Bind) (loc : Bool) (h : (eval X e b false).Left) :
    (eval X (Ex.proj e chain) b loc).Fails ∧
    (∀ v, (eval X d b false).Value v → (eval X (Ex.or (Ex.proj e chain) d) b loc).Value v) := by
  obtain ⟨x, i, hx⟩ := h
  have hp : ∀ loc, eval X (Ex.proj e chain) b loc = .fail i := by
    intro loc
    rw [eval_proj, hx]
    rfl
  refine ⟨⟨i, hp loc⟩, ?_⟩
  rintro v ⟨j, hj, hv⟩
  have : eval X (Ex.or (Ex.proj e chain) d) b loc = orEv (Ex.or (Ex.proj e chain) d) (eval X (Ex.proj e chain) b false) (eval X d b false) := by
    simp only [eval, evalL, sem]
  rw [this, hp, hj]
  exact ⟨_, rfl, hv⟩

/-- the integers of a list -/
def Ev.ints : Ev → Option (List (Option Int))
  | .val (.list l) _ => some (l.map (fun n => match n.val with | .int i => some i | _ => none))
  | _ => none

/-- **C70** (defect, early result): `x.[*].a || y` yields `y` while `x` is unresolved and `[1, 2]` afterwards; the second state of the document is a later
state of the first one. For the other expressions results are final (C56). -/
theorem projection_not_final_defect :
    let e := Ex.or (Ex.proj (Ex.ref ["x"]) (pathChain ["a"])) (Ex.ref ["y"])
    let x := Val.list [Node.new (.map [("a", Node.new (.int 1) "")]) "", Node.new (.map [("a", Node.new (.int 2) "")]) ""]
    Bind.Le plainEvLib (twoRefs (.expr (Ex.ref ["z"]))) (twoRefs x) ∧
    (eval plainEvLib e (twoRefs (.expr (Ex.ref ["z"]))) false).int? = some 2 ∧
    (eval plainEvLib e (twoRefs x) false).ints = some [some 1, some 2] :=
  ⟨twoRefs_le _ _, by decide +kernel, by decide +kernel⟩

/-- **C70** (defect, unresolved chain): if the index of `e.[*].[index]` is not yet resolved, all entries of the result are the same expression. So
they have the same value later, whatever the entries of `e` are. -/
theorem projection_index_defect (X : EvLib) (e index : Ex) (b : Bind) (loc : Bool) (l : List (Node Ex)) (i : Info)
    (he : eval X e b false = .val (.list l) i) (hl : ∀ n ∈ l, Usable X.ctl n.val)
    (hi : ∀ n ∈ l, ∀ loc', (eval X index { b with proj := n.val } loc').Left) :
    ∃ ns, (eval X (Ex.proj e (indexChain index)) b loc).Value (.list ns) ∧ ns.length = l.length ∧
      (∀ n ∈ ns, n.val = .expr (indexChain index)) := by
  have h := (projection_spec X e (indexChain index) b loc _ i _ he (.list l) nofun (.inl rfl)).1
  refine ⟨l.map (fun _ => Node.new (.expr (indexChain index)) (dynSource b.source)), (h _).2 ⟨_, rfl, ?_⟩, by simp, ?_⟩
  · clear h he
    induction l with
    | nil => exact .nil
    | cons n r ih =>
      refine .cons ?_ (ih (fun x hx => hl x (List.mem_cons_of_mem _ hx)) (fun x hx => hi x (List.mem_cons_of_mem _ hx)))
      obtain ⟨x, j, hj⟩ := hi n List.mem_cons_self loc
      have hr := (localReady_iff ..).2 (hl n List.mem_cons_self)
      refine ⟨{}, ?_, rfl⟩
      have hcx : completeV X.ctl (.expr x) = false := by simp [completeV]
      have : entryEval X (indexChain index) b loc n.val =
          dynEv X (indexChain index) (eval X (.node .projValue []) { b with proj := n.val } loc) (fun l => eval X index { b with proj := n.val } l) loc := by
        simp only [entryEval, eval, evalL, sem]
      rw [this, eval_projValue]
      simp only [dynEv, hr, Bool.not_true, Bool.false_eq_true, if_false, Bool.or_false, hj, hcx, Bool.not_false, if_true]
      rfl
  · intro n hn
    obtain ⟨_, _, rfl⟩ := List.mem_map.1 hn
    rfl

/-- `i` is not yet resolved -/
def pendingIndex (x : Val Ex) : Bind :=
  { twoRefs x with ref := fun p => if p = ["i"] then .found (Node.new (.expr (Ex.ref ["z"])) "") else (twoRefs x).ref p }

/-- which entries of a list are the expression `.[i]` of the projected entry -/
def Ev.sames : Ev → Option (List Bool)
  | .val (.list l) _ => some (l.map (fun n => match n.val with | .expr e => decide (e = indexChain (Ex.ref ["i"])) | _ => false))
  | _ => none

/-- the hypotheses are met: `x.[*].a` for a list and a map, a nested projection, a missing field, an index that is resolved and one that is not -/
theorem projection_example :
    let l := Val.list [Node.new (.map [("a", Node.new (.int 1) "")]) "", Node.new (.map [("a", Node.new (.int 2) "")]) ""]
    let m := Val.map [("q", Node.new (.map [("a", Node.new (.int 1) "")]) ""), ("p", Node.new (.map [("a", Node.new (.int 2) "")]) "")]
    (eval plainEvLib (Ex.proj (Ex.ref ["x"]) (pathChain ["a"])) (exampleBind l) false).ints = some [some 1, some 2] ∧
    (eval plainEvLib (Ex.proj (Ex.ref ["x"]) (pathChain ["a"])) (exampleBind m) false).ints = some [some 2, some 1] ∧
    (eval plainEvLib (Ex.proj (Ex.ref ["x"]) (Ex.proj (.node .projValue []) (.node .projValue []))) (exampleBind m) false).ints = some [none, none] ∧
    (eval plainEvLib (Ex.proj (Ex.ref ["x"]) (pathChain ["b"])) (exampleBind l) false).ints = none ∧
    (eval plainEvLib (Ex.proj (Ex.ref ["x"]) (indexChain (Ex.lit (.str "a")))) (exampleBind l) false).ints = some [some 1, some 2] ∧
    (eval plainEvLib (Ex.proj (Ex.ref ["x"]) (indexChain (Ex.ref ["i"]))) (pendingIndex l) false).sames = some [true, true] ∧
    (eval plainEvLib (Ex.ref ["i"]) (pendingIndex l) true).isLater = true := by
  refine ⟨by decide +kernel, by decide +kernel, by decide +kernel, by decide +kernel, by decide +kernel, by decide +kernel, by decide +kernel⟩

end Spiff
