import Verif.Spec.Library
import Verif.Props.Slice
import Verif.Lemmas.Maps
/-
C91: processing through the library.
-/
namespace Spiff
open Spec
variable {φ σ B N : Type}

/-! ### stubs -/

theorem loop_length (E : Engine φ σ B N) (f : φ) (b : B) (l : List N) : (prepareLoop E f b l).2.1.length = l.length := by
  induction l with
  | nil => rfl
  | cons x rest ih =>
    rw [prepareLoop]
    rcases h : prepareLoop E f b rest with ⟨b', done, ok⟩
    rw [h] at ih
    cases ok with
    | false => simpa using ih
    | true =>
      simp only
      rcases h' : E.flow f (E.reset b') x done with ⟨b'', r, ok⟩
      cases ok <;> simpa using ih

theorem loop_iff (E : Engine φ σ B N) (f : φ) (b : B) (l : List N) : ∀ b' done, prepareLoop E f b l = (b', done, true) ↔ Prepares E f b l b' done := by
  induction l with
  | nil =>
    intro b' done
    constructor
    · intro h; cases h; exact .nil
    · intro h; cases h; rfl
  | cons x rest ih =>
    intro b' done
    rw [prepareLoop]
    constructor
    · intro h
      split at h
      · cases h
      · rename_i b1 d1 h1
        split at h
        · rename_i b2 r h2
          cases h
          exact .cons ((ih _ _).1 h1) h2
        · cases h
    · intro h
      cases h with
      | cons h hr =>
        rw [(ih _ _).2 h]
        simp only [hr]

theorem prepares_unique {E : Engine φ σ B N} {f : φ} {b : B} {l : List N} {b1 b2 : B} {d1 d2 : List N} (h1 : Prepares E f b l b1 d1)
    (h2 : Prepares E f b l b2 d2) : b1 = b2 ∧ d1 = d2 := by
  rw [← loop_iff] at h1 h2
  rw [h1] at h2
  cases h2
  exact ⟨rfl, rfl⟩

theorem apply_iff (E : Engine φ σ B N) (f : φ) (b : B) (t : N) (prepared : List N) (r : N) :
    (applyStubs E f (E.reset b) t prepared).2 = some r ↔ Applies E f b t prepared r := by
  unfold applyStubs Applies
  rcases h : E.flow f (E.reset b) t prepared with ⟨b', x, ok⟩
  cases ok with
  | false => simp
  | true =>
    simp only [Option.some.injEq]
    constructor
    · rintro rfl; exact ⟨b', x, rfl, rfl⟩
    · rintro ⟨_, _, h, rfl⟩; cases h; rfl

/-- the elements of a slice after the stubs were prepared -/
theorem read_prepared {h : Arrays N} {s : Slice} (hs : s.OK h) (l : List N) (hl : l.length = s.len) :
    s.read (h.modify s.arr (fun a => overwrite a 0 l)) = l := by
  obtain ⟨h1, h2, h3⟩ := hs
  unfold Slice.read
  rw [getD_modify_self _ _ _ h1, overwrite, List.take_zero, List.nil_append, List.take_append_of_le_length (by omega), List.take_of_length_le (by omega)]

theorem read_length {h : Arrays N} {s : Slice} (hs : s.OK h) : (s.read h).length = s.len := by
  obtain ⟨h1, h2, h3⟩ := hs
  unfold Slice.read
  rw [List.length_take]
  omega

section
variable [Inhabited N] (E : Engine φ σ B N) (grow : Nat → Nat → Nat)

theorem step_ctx (w : LibWorld φ σ B N) (call : LibCall φ σ N) {i : Nat} {c : LibCtx σ B} (hr : call.receiver = some i) (hc : w.ctxs[i]? = some c) :
    w.step E grow call = ctxCall E grow w i c call := by
  unfold LibWorld.step
  cases call <;> simp only [LibCall.receiver, reduceCtorEq, Option.some.injEq] at hr <;> subst hr <;> simp only [LibCall.receiver, hc]

/-- what `PrepareStubs` does to a slice -/
theorem prepare_at (f : φ) (b : B) (h : Arrays N) (s : Slice) (l : List N) (hl : s.read h = l) {b' : B} {done : List N} {ok : Bool}
    (hp : prepareLoop E f b l = (b', done, ok)) :
    prepareStubsAt E f b h s = (if ok then E.reset b' else b', h.modify s.arr (fun a => overwrite a 0 done), ok) := by
  unfold prepareStubsAt
  rw [hl, hp]

/-- what `Cascade` does -/
theorem cascade_eq (w : LibWorld φ σ B N) {i : Nat} {c : LibCtx σ B} (hc : w.ctxs[i]? = some c) (t : N) {stubs : Slice} (hs : stubs.OK w.arrays) (states : List N)
    (r : N) : (w.step E grow (.cascade i t stubs states)).2 = .node r ↔
      CascadeResult E w.shared c.settings (w.tagsOf c) t (stubs.read w.arrays ++ states) r := by
  rw [step_ctx E grow w _ rfl hc]
  have hread := append_reads grow hs states
  have hok := append_ok grow hs states
  have hb : w.assure E { c with binding := none } = E.fresh c.settings (w.tagsOf c) := rfl
  simp only [ctxCall, cascadeCall, hb]
  generalize ha : stubs.append grow w.arrays states = a at hread hok
  rcases hp : prepareLoop E w.shared (E.fresh c.settings (w.tagsOf c)) (stubs.read w.arrays ++ states) with ⟨b, done, ok⟩
  rw [prepare_at E w.shared _ a.1 a.2 _ hread hp]
  have hlen : done.length = a.2.len := by
    have := loop_length E w.shared (E.fresh c.settings (w.tagsOf c)) (stubs.read w.arrays ++ states)
    rw [hp] at this
    rw [this, ← hread, read_length hok]
  cases ok with
  | false =>
    simp only
    constructor
    · intro h; cases h
    · rintro ⟨b', prepared, h, -⟩
      rw [← loop_iff, hp] at h
      cases h
  | true =>
    simp only [if_true]
    rw [read_prepared hok done hlen]
    have hpr := (loop_iff E w.shared _ _ _ _).1 hp
    have hres : CascadeResult E w.shared c.settings (w.tagsOf c) t (stubs.read w.arrays ++ states) r ↔ Applies E w.shared b t done r := by
      constructor
      · rintro ⟨b', prepared, h, h'⟩
        obtain ⟨rfl, rfl⟩ := prepares_unique h hpr
        exact h'
      · exact fun h => ⟨b, done, hpr, h⟩
    rw [hres, ← apply_iff]
    rcases applyStubs E w.shared (E.reset b) t done with ⟨b', o⟩
    cases o <;> simp

/-- `Cascade` returns a result or an error -/
theorem cascade_out (w : LibWorld φ σ B N) {i : Nat} {c : LibCtx σ B} (hc : w.ctxs[i]? = some c) (t : N) (stubs : Slice) (states : List N) :
    (∃ r, (w.step E grow (.cascade i t stubs states)).2 = .node r) ∨ (w.step E grow (.cascade i t stubs states)).2 = .failed := by
  rw [step_ctx E grow w _ rfl hc]
  simp only [ctxCall, cascadeCall]
  rcases prepareStubsAt E w.shared (w.assure E { c with binding := none }) (stubs.append grow w.arrays states).1 (stubs.append grow w.arrays states).2 with ⟨b, h, ok⟩
  cases ok with
  | false => exact .inr rfl
  | true =>
    simp only
    rcases applyStubs E w.shared b t ((stubs.append grow w.arrays states).2.read h) with ⟨b', o⟩
    cases o with
    | none => exact .inr rfl
    | some r => exact .inl ⟨r, rfl⟩

/-! ### what other calls leave alone -/

theorem modify_getElem? {α : Type} (l : List α) (i j : Nat) (g : α → α) (x : α) (h : l[j]? = some x) :
    (l.modify i g)[j]? = some (if i = j then g x else x) := by
  rw [List.getElem?_modify, h]
  by_cases hij : i = j
  · subst hij; simp
  · simp [hij]

/-- settings are never changed, tags and shared features only by calls made for this -/
theorem step_keeps (w : LibWorld φ σ B N) (call : LibCall φ σ N) {j : Nat} {d : LibCtx σ B} (hd : w.ctxs[j]? = some d) :
    ∃ d', (w.step E grow call).1.ctxs[j]? = some d' ∧ d'.settings = d.settings ∧
      (¬ Affecting call → d'.tags = d.tags ∧ (w.step E grow call).1.tagMaps = w.tagMaps ∧ (w.step E grow call).1.shared = w.shared) := by
  have happ : ∀ x : LibCtx σ B, (w.ctxs ++ [x])[j]? = some d := by
    intro x
    rw [List.getElem?_append_left (List.getElem?_eq_some_iff.1 hd).1]; exact hd
  have hset : ∀ (i : Nat) (b : Option B), ∃ d', (w.setBinding i b).ctxs[j]? = some d' ∧ d'.settings = d.settings ∧ d'.tags = d.tags := by
    intro i b
    refine ⟨if i = j then { d with binding := b } else d, ?_, ?_, ?_⟩
    · unfold LibWorld.setBinding
      exact modify_getElem? _ _ _ _ _ hd
    · split <;> rfl
    · split <;> rfl
  by_cases hn : ∃ s, call = .new s
  · obtain ⟨s, rfl⟩ := hn
    exact ⟨d, happ _, rfl, fun _ => ⟨rfl, rfl, rfl⟩⟩
  by_cases hal : ∃ s t, call = .alloc s t
  · obtain ⟨s, t, rfl⟩ := hal
    exact ⟨d, hd, rfl, fun _ => ⟨rfl, rfl, rfl⟩⟩
  obtain ⟨i, hi⟩ : ∃ i, call.receiver = some i := by
    cases call <;> first | exact ⟨_, rfl⟩ | (exfalso; exact hn ⟨_, rfl⟩) | (exfalso; exact hal ⟨_, _, rfl⟩)
  cases hc : w.ctxs[i]? with
  | none =>
    have : w.step E grow call = (w, .panic) := by
      unfold LibWorld.step
      cases call <;> simp only [LibCall.receiver, reduceCtorEq, Option.some.injEq] at hi <;> subst hi <;> simp only [LibCall.receiver, hc]
    rw [this]
    exact ⟨d, hd, rfl, fun _ => ⟨rfl, rfl, rfl⟩⟩
  | some c =>
    rw [step_ctx E grow w call hi hc]
    cases call with
    | new s => exact absurd ⟨s, rfl⟩ hn
    | alloc s t => exact absurd ⟨s, t, rfl⟩ hal
    | withSettings k s g =>
      refine ⟨d, happ _, rfl, fun ha => ⟨rfl, rfl, ?_⟩⟩
      by_cases hg : g w.shared = w.shared
      · exact hg
      · exact absurd ⟨_, hg⟩ ha
    | setTag k tag n =>
      simp only [ctxCall, setTagCall]
      cases c.tags with
      | none => exact ⟨d, hd, rfl, fun ha => absurd trivial ha⟩
      | some a => exact ⟨d, happ _, rfl, fun ha => absurd trivial ha⟩
    | cleanupTags k =>
      refine ⟨if i = j then { d with binding := none, tags := some w.tagMaps.length } else d, modify_getElem? _ _ _ _ _ hd, ?_, fun ha => absurd trivial ha⟩
      split <;> rfl
    | reset k =>
      obtain ⟨d', h1, h2, h3⟩ := hset i none
      exact ⟨d', h1, h2, fun _ => ⟨h3, rfl, rfl⟩⟩
    | resetStream k =>
      obtain ⟨d', h1, h2, h3⟩ := hset i (c.binding.map E.reset)
      exact ⟨d', h1, h2, fun _ => ⟨h3, rfl, rfl⟩⟩
    | cascade k t stubs states =>
      obtain ⟨d', h1, h2, h3⟩ := hset i none
      simp only [ctxCall, cascadeCall]
      split
      · exact ⟨d', h1, h2, fun _ => ⟨h3, rfl, rfl⟩⟩
      · split <;> exact ⟨d', h1, h2, fun _ => ⟨h3, rfl, rfl⟩⟩
    | prepare k stubs =>
      simp only [ctxCall, prepareCall]
      rcases prepareStubsAt E w.shared (w.assure E { c with binding := none }) w.arrays stubs with ⟨b, h, ok⟩
      obtain ⟨d', h1, h2, h3⟩ := hset i (some b)
      exact ⟨d', h1, h2, fun _ => ⟨h3, rfl, rfl⟩⟩
    | apply k t prepared stream =>
      simp only [ctxCall, applyCall]
      split
      · rename_i b r _
        obtain ⟨d', h1, h2, h3⟩ := hset i (some b)
        exact ⟨d', h1, h2, fun _ => ⟨h3, rfl, rfl⟩⟩
      · rename_i b _
        obtain ⟨d', h1, h2, h3⟩ := hset i (some b)
        exact ⟨d', h1, h2, fun _ => ⟨h3, rfl, rfl⟩⟩

theorem run_keeps (calls : List (LibCall φ σ N)) : ∀ (w : LibWorld φ σ B N) {j : Nat} {d : LibCtx σ B}, w.ctxs[j]? = some d →
    ∃ d', (w.run E grow calls).ctxs[j]? = some d' ∧ d'.settings = d.settings ∧
      ((∀ c ∈ calls, ¬ Affecting c) → (w.run E grow calls).tagsOf d' = w.tagsOf d ∧ (w.run E grow calls).shared = w.shared) := by
  have key : ∀ (calls : List (LibCall φ σ N)) (w : LibWorld φ σ B N) {j : Nat} {d : LibCtx σ B}, w.ctxs[j]? = some d →
    ∃ d', (w.run E grow calls).ctxs[j]? = some d' ∧ d'.settings = d.settings ∧
      ((∀ c ∈ calls, ¬ Affecting c) → d'.tags = d.tags ∧ (w.run E grow calls).tagMaps = w.tagMaps ∧ (w.run E grow calls).shared = w.shared) := by
    intro calls
    induction calls with
    | nil => intro w j d hd; exact ⟨d, hd, rfl, fun _ => ⟨rfl, rfl, rfl⟩⟩
    | cons c r ih =>
      intro w j d hd
      obtain ⟨d1, h1, h2, h3⟩ := step_keeps E grow w c hd
      obtain ⟨d2, g1, g2, g3⟩ := ih (w.step E grow c).1 h1
      refine ⟨d2, g1, g2.trans h2, fun ha => ?_⟩
      obtain ⟨e1, e2, e3⟩ := h3 (ha c (by simp))
      obtain ⟨k1, k2, k3⟩ := g3 (fun c hc => ha c (by simp [hc]))
      exact ⟨k1.trans e1, k2.trans e2, k3.trans e3⟩
  intro w j d hd
  obtain ⟨d', h1, h2, h3⟩ := key calls w hd
  refine ⟨d', h1, h2, fun ha => ?_⟩
  obtain ⟨e1, e2, e3⟩ := h3 ha
  exact ⟨by unfold LibWorld.tagsOf; rw [e1, e2], e3⟩

/-- **C91**: `Cascade` starts afresh: whatever was processed before, by this or any other context, and whatever contexts were derived, the same documents give the same result. -/
theorem cascade_fresh (w : LibWorld φ σ B N) (calls : List (LibCall φ σ N)) (ha : ∀ c ∈ calls, ¬ Affecting c) {i : Nat} {c : LibCtx σ B} (hc : w.ctxs[i]? = some c)
    (t : N) (stubs stubs' : Slice) (states states' : List N) (hs : stubs.OK w.arrays) (hs' : stubs'.OK (w.run E grow calls).arrays)
    (hd : stubs.read w.arrays ++ states = stubs'.read (w.run E grow calls).arrays ++ states') :
    ((w.run E grow calls).step E grow (.cascade i t stubs' states')).2 = (w.step E grow (.cascade i t stubs states)).2 := by
  obtain ⟨d', h1, h2, h3⟩ := run_keeps E grow calls w hc
  obtain ⟨e1, e2⟩ := h3 ha
  have hiff : ∀ r, ((w.run E grow calls).step E grow (.cascade i t stubs' states')).2 = .node r ↔ (w.step E grow (.cascade i t stubs states)).2 = .node r := by
    intro r
    rw [cascade_eq E grow w hc t hs, cascade_eq E grow _ h1 t hs', h2, e1, e2, hd]
  rcases cascade_out E grow w hc t stubs states with ⟨r, hr⟩ | hf
  · rw [hr]; exact (hiff r).2 hr
  · rcases cascade_out E grow _ h1 t stubs' states' with ⟨r, hr⟩ | hf'
    · rw [(hiff r).1 hr] at hf; cases hf
    · rw [hf, hf']

/-- **C91**: `Cascade` is `PrepareStubs` followed by `ApplyStubs`. -/
theorem cascade_prepare_apply (hr : ∀ b, E.reset (E.reset b) = E.reset b) (w : LibWorld φ σ B N) {i : Nat} {c : LibCtx σ B} (hc : w.ctxs[i]? = some c) (t : N)
    {stubs : Slice} (hs : stubs.OK w.arrays) :
    (w.step E grow (.cascade i t stubs [])).2 =
      match (w.step E grow (.prepare i stubs)).2 with
      | .slice s => ((w.step E grow (.prepare i stubs)).1.step E grow (.apply i t s false)).2
      | _ => .failed := by
  have happ : stubs.append grow w.arrays [] = (w.arrays.modify stubs.arr (fun a => overwrite a stubs.len []), stubs) := by
    unfold Slice.append
    obtain ⟨h1, h2, h3⟩ := hs
    rw [if_pos (by simpa using h2)]
    rfl
  have hid : w.arrays.modify stubs.arr (fun a => overwrite a stubs.len []) = w.arrays := by
    have : (fun a : List N => overwrite a stubs.len []) = id := by
      funext a
      simp [overwrite]
    rw [this, List.modify_id]
  rw [hid] at happ
  rw [step_ctx E grow w (.cascade i t stubs []) rfl hc, step_ctx E grow w (.prepare i stubs) rfl hc]
  have hb : w.assure E { c with binding := none } = E.fresh c.settings (w.tagsOf c) := rfl
  simp only [ctxCall, cascadeCall, prepareCall, happ, hb]
  rcases hp : prepareLoop E w.shared (E.fresh c.settings (w.tagsOf c)) (stubs.read w.arrays) with ⟨b, done, ok⟩
  rw [prepare_at E w.shared _ w.arrays stubs _ rfl hp]
  cases ok with
  | false => rfl
  | true =>
    simp only [if_true]
    have hc' : ({ w.setBinding i (some (E.reset b)) with arrays := w.arrays.modify stubs.arr fun a => overwrite a 0 done } : LibWorld φ σ B N).ctxs[i]? =
        some { c with binding := some (E.reset b) } := by
      have := modify_getElem? w.ctxs i i (fun c => { c with binding := some (E.reset b) }) c hc
      rw [if_pos rfl] at this
      exact this
    rw [step_ctx E grow _ (.apply i t stubs false) rfl hc']
    simp only [ctxCall, applyCall, LibWorld.assure, Option.getD_some, Bool.false_eq_true, if_false, hr]
    rw [show (w.setBinding i (some (E.reset b))).shared = w.shared from rfl]
    rcases applyStubs E w.shared (E.reset b) t (stubs.read (w.arrays.modify stubs.arr fun a => overwrite a 0 done)) with ⟨b', o⟩
    cases o <;> rfl

/-- **C91**, the stubs given to `Cascade` are overwritten: afterwards the slice of the caller holds the processed stubs. -/
theorem cascade_overwrites (w : LibWorld φ σ B N) {i : Nat} {c : LibCtx σ B} (hc : w.ctxs[i]? = some c) (t : N) {stubs : Slice} (hs : stubs.OK w.arrays)
    (states : List N) (hroom : stubs.len + states.length ≤ stubs.cap) {b : B} {done : List N}
    (hp : Prepares E w.shared (E.fresh c.settings (w.tagsOf c)) (stubs.read w.arrays ++ states) b done) :
    stubs.read (w.step E grow (.cascade i t stubs states)).1.arrays = done.take stubs.len := by
  have hread := append_reads grow hs states
  have hok := append_ok grow hs states
  have harr : (stubs.append grow w.arrays states).2.arr = stubs.arr := by unfold Slice.append; rw [if_pos hroom]
  have hlen : done.length = (stubs.append grow w.arrays states).2.len := by
    have := loop_length E w.shared (E.fresh c.settings (w.tagsOf c)) (stubs.read w.arrays ++ states)
    rw [(loop_iff ..).2 hp] at this
    rw [this, ← hread, read_length hok]
  have hlen' : (stubs.append grow w.arrays states).2.len = stubs.len + states.length := by unfold Slice.append; rw [if_pos hroom]
  have hfin : stubs.read ((stubs.append grow w.arrays states).1.modify (stubs.append grow w.arrays states).2.arr (fun a => overwrite a 0 done)) = done.take stubs.len := by
    have h := read_prepared hok done hlen
    have hsub : ∀ h : Arrays N, stubs.read h = ((stubs.append grow w.arrays states).2.read h).take stubs.len := by
      intro h
      unfold Slice.read
      rw [harr, hlen', List.take_take]
      congr 1
      omega
    rw [hsub, h]
  rw [step_ctx E grow w _ rfl hc]
  have hb : w.assure E { c with binding := none } = E.fresh c.settings (w.tagsOf c) := rfl
  simp only [ctxCall, cascadeCall, hb]
  rw [prepare_at E w.shared _ _ _ _ hread ((loop_iff ..).2 hp)]
  simp only [if_true]
  split <;> (rename_i heq; exact hfin)

/-- without room for the states the slice of the caller is not touched -/
theorem cascade_keeps (w : LibWorld φ σ B N) {i : Nat} {c : LibCtx σ B} (hc : w.ctxs[i]? = some c) (t : N) {stubs s : Slice} (hs' : s.OK w.arrays)
    (states : List N) (hroom : stubs.cap < stubs.len + states.length) : s.read (w.step E grow (.cascade i t stubs states)).1.arrays = s.read w.arrays := by
  have harr : (stubs.append grow w.arrays states).2.arr = w.arrays.length := by unfold Slice.append; rw [if_neg (by omega)]
  have hfin : ∀ l, s.read ((stubs.append grow w.arrays states).1.modify (stubs.append grow w.arrays states).2.arr (fun a => overwrite a 0 l)) = s.read w.arrays := by
    intro l
    rw [← append_full_preserves grow hs' states hroom]
    unfold Slice.read
    rw [harr, getD_modify_ne _ _ _ _ (by have := hs'.1; omega)]
  rw [step_ctx E grow w _ rfl hc]
  have hb : w.assure E { c with binding := none } = E.fresh c.settings (w.tagsOf c) := rfl
  simp only [ctxCall, cascadeCall, hb]
  rcases hp : prepareLoop E w.shared (E.fresh c.settings (w.tagsOf c)) ((stubs.append grow w.arrays states).2.read (stubs.append grow w.arrays states).1) with ⟨b, l, ok⟩
  rw [prepare_at E w.shared _ _ _ _ rfl hp]
  cases ok with
  | false => exact hfin l
  | true =>
    simp only
    split <;> exact hfin l

/-! ### tags -/

/-- in a world without `CleanupTags` no context has a map of tags -/
theorem step_noTags (w : LibWorld φ σ B N) (hw : ∀ c ∈ w.ctxs, c.tags = none) (call : LibCall φ σ N) (hcall : ∀ i, call ≠ .cleanupTags i) :
    ∀ c ∈ (w.step E grow call).1.ctxs, c.tags = none := by
  have hset : ∀ (i : Nat) (b : Option B), ∀ c ∈ (w.setBinding i b).ctxs, c.tags = none := by
    intro i b c hc
    unfold LibWorld.setBinding at hc
    obtain ⟨k, hk⟩ := List.mem_iff_getElem?.1 hc
    simp only [List.getElem?_modify] at hk
    cases h : w.ctxs[k]? with
    | none => rw [h] at hk; cases hk
    | some d =>
      have := hw d (List.mem_of_getElem? h)
      rw [h] at hk
      by_cases hik : i = k
      · simp only [hik, if_true] at hk
        cases hk; exact this
      · simp only [hik, if_false] at hk
        cases hk; exact this
  have happ : ∀ x : LibCtx σ B, x.tags = none → ∀ c ∈ w.ctxs ++ [x], c.tags = none := by
    intro x hx c hc
    rcases List.mem_append.1 hc with h | h
    · exact hw c h
    · rw [List.mem_singleton.1 h]; exact hx
  by_cases hn : ∃ s, call = .new s
  · obtain ⟨s, rfl⟩ := hn
    exact happ _ rfl
  by_cases hal : ∃ s t, call = .alloc s t
  · obtain ⟨s, t, rfl⟩ := hal
    exact hw
  obtain ⟨i, hi⟩ : ∃ i, call.receiver = some i := by
    cases call <;> first | exact ⟨_, rfl⟩ | (exfalso; exact hn ⟨_, rfl⟩) | (exfalso; exact hal ⟨_, _, rfl⟩)
  cases hc : w.ctxs[i]? with
  | none =>
    have : w.step E grow call = (w, .panic) := by
      unfold LibWorld.step
      cases call <;> simp only [LibCall.receiver, reduceCtorEq, Option.some.injEq] at hi <;> subst hi <;> simp only [LibCall.receiver, hc]
    rw [this]
    exact hw
  | some c =>
    have hct := hw c (List.mem_of_getElem? hc)
    rw [step_ctx E grow w call hi hc]
    cases call with
    | new s => exact absurd ⟨s, rfl⟩ hn
    | alloc s t => exact absurd ⟨s, t, rfl⟩ hal
    | withSettings k s g => exact happ _ hct
    | setTag k tag n =>
      simp only [ctxCall, setTagCall, hct]
      exact hw
    | cleanupTags k => exact absurd rfl (hcall k)
    | reset k => exact hset i none
    | resetStream k => exact hset i _
    | cascade k t stubs states =>
      simp only [ctxCall, cascadeCall]
      split
      · exact hset i none
      · split <;> exact hset i none
    | prepare k stubs =>
      simp only [ctxCall, prepareCall]
      exact hset i _
    | apply k t prepared stream =>
      simp only [ctxCall, applyCall]
      split <;> exact hset i _

/-- **C91**: `SetTag` panics on every context, as long as `CleanupTags` was never called. -/
theorem setTag_panics (w : LibWorld φ σ B N) (hw : w.ctxs = []) (calls : List (LibCall φ σ N)) (hc : ∀ c ∈ calls, ∀ i, c ≠ .cleanupTags i) (i : Nat) (tag : String) (n : N) :
    ((w.run E grow calls).step E grow (.setTag i tag n)).2 = .panic := by
  have key : ∀ (calls : List (LibCall φ σ N)) (w : LibWorld φ σ B N), (∀ c ∈ w.ctxs, c.tags = none) → (∀ c ∈ calls, ∀ i, c ≠ .cleanupTags i) →
      ∀ c ∈ (w.run E grow calls).ctxs, c.tags = none := by
    intro calls
    induction calls with
    | nil => intro w hw _; exact hw
    | cons c r ih => intro w hw h; exact ih _ (step_noTags E grow w hw c (h c (by simp))) (fun d hd => h d (by simp [hd]))
  have hall := key calls w (by rw [hw]; intro c hc; cases hc) hc
  cases h : (w.run E grow calls).ctxs[i]? with
  | none => unfold LibWorld.step; simp only [LibCall.receiver, h]
  | some c =>
    rw [step_ctx E grow _ (.setTag i tag n) rfl h]
    simp only [ctxCall, setTagCall, hall c (List.mem_of_getElem? h)]

/-- **C91**: with a map of tags, `SetTag` sets the tag for the new context and for the context it is called on, and for all contexts sharing the map. -/
theorem setTag_shared (w : LibWorld φ σ B N) {i a : Nat} {c : LibCtx σ B} (hc : w.ctxs[i]? = some c) (ha : c.tags = some a) (hla : a < w.tagMaps.length) (tag : String) (n : N)
    (d : LibCtx σ B) (hd : d.tags = some a) (x : String) :
    (w.step E grow (.setTag i tag n)).2 = .ctx w.ctxs.length ∧
    mget ((w.step E grow (.setTag i tag n)).1.tagsOf d) x = if x = tag then some n else mget (w.tagsOf d) x := by
  rw [step_ctx E grow w _ rfl hc]
  simp only [ctxCall, setTagCall, ha, LibWorld.tagsOf, hd, Option.map_some, Option.getD_some, true_and]
  rw [getD_modify_self _ _ _ hla, mget_mset]

end

/-! ### the library and the command -/

section
variable {E S : Type}

theorem loop_command (L : CmdLib E S) (start : σ → List (String × Node E) → S) (ip : φ → Bool) (f : φ) (s : S) (l : List (Node E)) : ∀ s' done,
    prepareLoop (libEngine L start ip) f s l = (s', done, true) ↔ prepareAll L false s l = (s', some done) := by
  induction l with
  | nil => intro s' done; simp [prepareLoop, prepareAll]
  | cons x rest ih =>
    intro s' done
    rw [prepareLoop, prepareAll]
    rcases h1 : prepareLoop (libEngine L start ip) f s rest with ⟨s1, d1, ok⟩
    rcases h2 : prepareAll L false s rest with ⟨s2, o⟩
    cases ok with
    | false =>
      cases o with
      | none => simp
      | some d =>
        have := (ih s2 d).2 h2
        rw [h1] at this
        cases this
    | true =>
      have := (ih s1 d1).1 h1
      rw [h2] at this
      cases this
      simp only
      rcases h3 : L.flow (L.reset s1) x d1 with ⟨s3, r, e⟩
      have h4 : (libEngine L start ip).flow f ((libEngine L start ip).reset s1) x d1 = (s3, r, e.isNone) := by
        simp only [libEngine, h3]
      rw [h4]
      cases e with
      | none => simp [libEngine]
      | some e => simp

theorem apply_command (L : CmdLib E S) (start : σ → List (String × Node E) → S) (ip : φ → Bool) (f : φ) (s : S) (t : Node E) (prepared : List (Node E)) (s' : S) (r : Node E) :
    applyStubs (libEngine L start ip) f s t prepared = (s', some r) ↔ applyDoc L (ip f) {} prepared s t = (s', r, none) := by
  unfold applyStubs applyDoc
  rcases h3 : L.flow s t prepared with ⟨s3, x, e⟩
  have h4 : (libEngine L start ip).flow f s t prepared = (s3, x, e.isNone) := by simp only [libEngine, h3]
  rw [h4]
  cases e with
  | none => simp [libEngine]
  | some e => simp

/-- applying prepared stubs to the documents of a stream -/
theorem stream_command (L : CmdLib E S) (start : σ → List (String × Node E) → S) (ip : φ → Bool) (grow : Nat → Nat → Nat) [Inhabited (Node E)] (i : Nat) (stubs : Slice) (ts : List (Node E)) :
    ∀ (w : LibWorld φ σ S (Node E)) (c : LibCtx σ S) (s : S), w.ctxs[i]? = some c → c.binding = some s → ∀ rs : List (Node E),
      (w.outs (libEngine L start ip) grow (ts.map (fun t => .apply i t stubs true)) = rs.map .node ↔
        Streams L (ip w.shared) {} (stubs.read w.arrays) s ts rs) := by
  induction ts with
  | nil =>
    intro w c s hc hb rs
    constructor
    · intro h
      cases rs with
      | nil => exact .nil
      | cons r rs => cases h
    · intro h; cases h; rfl
  | cons t ts ih =>
    intro w c s hc hb rs
    rw [List.map_cons, LibWorld.outs, step_ctx (libEngine L start ip) grow w (.apply i t stubs true) rfl hc]
    have hbind : w.assure (libEngine L start ip) c = s := by unfold LibWorld.assure; rw [hb]; rfl
    simp only [ctxCall, applyCall, hbind, if_true]
    rcases hap : applyStubs (libEngine L start ip) w.shared s t (stubs.read w.arrays) with ⟨s1, o⟩
    cases o with
    | none =>
      simp only
      constructor
      · intro h
        cases rs with
        | nil => cases h
        | cons r rs => cases h
      · intro h
        cases h with
        | cons h _ =>
          rw [← apply_command L start, hap] at h
          cases h
    | some r =>
      simp only
      have hc' : (w.setBinding i (some s1)).ctxs[i]? = some { c with binding := some s1 } := by
        have := modify_getElem? w.ctxs i i (fun c => { c with binding := some s1 }) c hc
        rw [if_pos rfl] at this
        exact this
      have hap' := (apply_command L start ip w.shared s t _ s1 r).1 hap
      constructor
      · intro h
        cases rs with
        | nil => cases h
        | cons r' rs =>
          rw [List.map_cons, List.cons.injEq] at h
          obtain ⟨h1, h2⟩ := h
          cases h1
          exact .cons hap' ((ih _ _ s1 hc' rfl rs).1 h2)
      · intro h
        cases h with
        | cons h hr =>
          rw [hap'] at h
          cases h
          rw [List.map_cons, (ih _ _ s1 hc' rfl _).2 hr]

/-- **C91**: the library does what the command does: preparing stubs and applying them to the documents of a stream gives the documents the command gives. -/
theorem library_command (L : CmdLib E S) (start : σ → List (String × Node E) → S) (ip : φ → Bool) (grow : Nat → Nat → Nat) [Inhabited (Node E)] (w : LibWorld φ σ S (Node E))
    {i : Nat} {c : LibCtx σ S} (hc : w.ctxs[i]? = some c) {stubs : Slice} (hs : stubs.OK w.arrays) (ts rs : List (Node E)) :
    w.outs (libEngine L start ip) grow (.prepare i stubs :: ts.map (fun t => .apply i t stubs true)) = .slice stubs :: rs.map .node ↔
      ∃ s prepared, prepareAll L false (start c.settings (w.tagsOf c)) (stubs.read w.arrays) = (s, some prepared) ∧
        Streams L (ip w.shared) {} prepared (L.reset s) ts rs := by
  rw [LibWorld.outs, step_ctx (libEngine L start ip) grow w (.prepare i stubs) rfl hc]
  have hb : w.assure (libEngine L start ip) { c with binding := none } = start c.settings (w.tagsOf c) := rfl
  simp only [ctxCall, prepareCall, hb]
  rcases hp : prepareLoop (libEngine L start ip) w.shared (start c.settings (w.tagsOf c)) (stubs.read w.arrays) with ⟨s, done, ok⟩
  have hlen : done.length = stubs.len := by
    have := loop_length (libEngine L start ip) w.shared (start c.settings (w.tagsOf c)) (stubs.read w.arrays)
    rw [hp] at this
    rw [this, read_length hs]
  rw [prepare_at (libEngine L start ip) w.shared _ w.arrays stubs _ rfl hp]
  cases ok with
  | false =>
    simp only [Bool.false_eq_true, if_false]
    constructor
    · intro h; cases h
    · rintro ⟨s', prepared, h, -⟩
      rw [← loop_command L start ip w.shared, hp] at h
      cases h
  | true =>
    have hp' := (loop_command L start ip w.shared _ _ _ _).1 hp
    simp only [if_true, List.cons.injEq, true_and]
    rw [stream_command L start ip grow i stubs ts _ { c with binding := some (L.reset s) } (L.reset s)
      (by have := modify_getElem? w.ctxs i i (fun c => { c with binding := some (L.reset s) }) c hc
          rw [if_pos rfl] at this
          exact this) rfl rs]
    show Streams L (ip w.shared) {} (stubs.read (w.arrays.modify stubs.arr fun a => overwrite a 0 done)) (L.reset s) ts rs ↔ _
    rw [read_prepared hs done hlen]
    constructor
    · exact fun h => ⟨s, done, hp', h⟩
    · rintro ⟨s', prepared, h, h'⟩
      rw [hp'] at h
      cases h
      exact h'

end

/-! ### examples -/

/-- An engine: settings are the value of a name, a document is a number or (`none`) an expression for the value of this name; processing adds the last stub. -/
def nameEngine : Engine Unit Nat Nat (Option Nat) :=
  { fresh := fun s _ => s, reset := id, flow := fun _ b n stubs => (b, some (n.getD b + (stubs.head?.bind id).getD 0), true), discardLocal := id, finish := fun _ n => n, push := fun b _ => b }

/-- a context with the value 1, one derived from it with the value 2, and two slices with an expression -/
def nameWorld : LibWorld Unit Nat Nat (Option Nat) :=
  LibWorld.run nameEngine goGrow { shared := () } [.new 1, .withSettings 0 (fun _ => 2) id, .alloc [none] [], .alloc [none] []]

/-- the number returned by a call -/
def LibOut.number : LibOut (Option Nat) → Option Nat
  | .node n => n
  | _ => none

/-- **C91**, the result of `Cascade` depends on earlier calls if the slice of stubs is used again: the stub was processed with the value of the first context. -/
theorem cascade_stale_defect :
    let used := (nameWorld.step nameEngine goGrow (.cascade 0 (some 0) ⟨0, 1, 1⟩ [])).1
    ((used.step nameEngine goGrow (.cascade 1 (some 0) ⟨0, 1, 1⟩ [])).2.number = some 1) ∧
    ((used.step nameEngine goGrow (.cascade 1 (some 0) ⟨1, 1, 1⟩ [])).2.number = some 2) ∧
    ((nameWorld.step nameEngine goGrow (.cascade 1 (some 0) ⟨0, 1, 1⟩ [])).2.number = some 2) := by
  decide +kernel

/-- an instance of `cascade_fresh`, `cascade_prepare_apply`, `cascade_overwrites`, `cascade_keeps` -/
theorem cascade_example :
    nameWorld.ctxs[1]?.isSome = true ∧ (⟨0, 1, 1⟩ : Slice).OK nameWorld.arrays ∧ (⟨1, 1, 1⟩ : Slice).OK nameWorld.arrays ∧
    (⟨1, 1, 1⟩ : Slice).read nameWorld.arrays = [none] ∧ (∀ b, nameEngine.reset (nameEngine.reset b) = nameEngine.reset b) ∧
    (∀ c ∈ ([.cascade 0 (some 0) ⟨0, 1, 1⟩ [], .apply 1 none ⟨0, 1, 1⟩ true, .reset 0] : List (LibCall Unit Nat (Option Nat))), ¬ Affecting c) ∧
    Prepares nameEngine () 2 [none] 2 [some 2] := by
  refine ⟨by decide +kernel, by unfold Slice.OK; decide +kernel, by unfold Slice.OK; decide +kernel, by decide +kernel, fun _ => rfl, ?_, .cons .nil rfl⟩
  simp [Affecting]

/-- an instance of `setTag_panics` and `setTag_shared`: `SetTag` on a new context panics; after `CleanupTags` it works, and the context itself has the tag -/
theorem setTag_example :
    (match (nameWorld.step nameEngine goGrow (.setTag 1 "t" (some 3))).2 with | .panic => true | _ => false) = true ∧
    (let w := nameWorld.run nameEngine goGrow [.cleanupTags 1]
     (w.ctxs[1]?.bind (·.tags) = some 0 ∧ w.tagMaps.length = 1 ∧
      (w.run nameEngine goGrow [.setTag 1 "t" (some 3)]).tagMaps = [[("t", some 3)]] ∧
      ((w.run nameEngine goGrow [.setTag 1 "t" (some 3)]).ctxs[1]?.bind (·.tags)) = some 0)) := by
  decide +kernel

/-- a processing which numbers the documents of a stream -/
def countLib : CmdLib Unit Nat where
  decode _ := none
  yaml _ := none
  json _ := none
  parse _ := none
  text _ := ""
  quote := id
  start _ := 7
  flow s _ _ := (s, Node.new (.int s) "", none)
  reset _ := 0
  push s _ := s + 1
  evaluate s _ _ := (s, none)

/-- the instance of `library_command` for a stub and two documents, and both of its sides hold: the documents are processed in one stream -/
theorem library_example :
    let w : LibWorld Unit Unit Nat (Node Unit) := { ctxs := [{ settings := () }], arrays := [[Node.new .nil ""]], shared := () }
    let x : Node Unit := Node.new .nil ""
    w.ctxs[0]?.isSome = true ∧ (⟨0, 1, 1⟩ : Slice).OK w.arrays ∧
    prepareAll countLib false (countLib.start none) ((⟨0, 1, 1⟩ : Slice).read w.arrays) = (0, some [Node.new (.int 0) ""]) ∧
    Streams countLib true {} [Node.new (.int 0) ""] 0 [x, x] [Node.new (.int 0) "", Node.new (.int 1) ""] := by
  refine ⟨rfl, by unfold Slice.OK; decide, rfl, .cons rfl (.cons rfl .nil)⟩

section
variable {φ σ B N : Type} [Inhabited N] (E : Engine φ σ B N) (grow : Nat → Nat → Nat)

theorem setBinding_at (w : LibWorld φ σ B N) {i : Nat} {c : LibCtx σ B} (hc : w.ctxs[i]? = some c) (b : Option B) :
    (w.setBinding i b).ctxs[i]? = some { c with binding := b } := by
  have := modify_getElem? w.ctxs i i (fun c => { c with binding := b }) c hc
  rw [if_pos rfl] at this
  exact this

/-- **C91**: `ApplyStubs` without stream is `ResetStream` followed by a streaming `ApplyStubs`. -/
theorem apply_resets (w : LibWorld φ σ B N) {i : Nat} {c : LibCtx σ B} {b : B} (hc : w.ctxs[i]? = some c) (hb : c.binding = some b) (t : N) (s : Slice) :
    (w.step E grow (.apply i t s false)).2 = ((w.step E grow (.resetStream i)).1.step E grow (.apply i t s true)).2 := by
  rw [step_ctx E grow w (.apply i t s false) rfl hc, step_ctx E grow w (.resetStream i) rfl hc]
  simp only [ctxCall, hb, Option.map_some]
  rw [step_ctx E grow _ (.apply i t s true) rfl (setBinding_at w hc _)]
  simp only [ctxCall, applyCall, LibWorld.assure, hb, Option.getD_some, Bool.false_eq_true, if_false, if_true]
  rw [show (w.setBinding i (some (E.reset b))).shared = w.shared from rfl, show (w.setBinding i (some (E.reset b))).arrays = w.arrays from rfl]
  rcases applyStubs E w.shared (E.reset b) t (s.read w.arrays) with ⟨b', o⟩
  cases o <;> rfl

/-- **C91**: `ApplyStubs` without stream does not depend on the documents processed before with the same prepared stubs, if processing a document changes nothing
but what `ResetStream` drops. -/
theorem apply_forgets (hf : ∀ f b t l, E.reset (applyStubs E f b t l).1 = E.reset b) {i : Nat} (t : N) (s : Slice) (calls : List (LibCall φ σ N))
    (ha : ∀ c ∈ calls, ∃ t s stream, c = .apply i t s stream) : ∀ (w : LibWorld φ σ B N) {c : LibCtx σ B}, w.ctxs[i]? = some c → (∀ b, E.reset (E.reset b) = E.reset b) →
    ((w.run E grow calls).step E grow (.apply i t s false)).2 = (w.step E grow (.apply i t s false)).2 := by
  induction calls with
  | nil => intro w c _ _; rfl
  | cons x r ih =>
    intro w c hc hr
    obtain ⟨t', s', stream, rfl⟩ := ha x (by simp)
    obtain ⟨b', hw⟩ : ∃ b', (w.step E grow (.apply i t' s' stream)).1 = w.setBinding i (some b') ∧ E.reset b' = E.reset (w.assure E c) := by
      rw [step_ctx E grow w (.apply i t' s' stream) rfl hc]
      simp only [ctxCall, applyCall]
      have h0 := hf w.shared (if stream then w.assure E c else E.reset (w.assure E c)) t' (s'.read w.arrays)
      rcases ho : applyStubs E w.shared (if stream then w.assure E c else E.reset (w.assure E c)) t' (s'.read w.arrays) with ⟨b', o⟩
      rw [ho] at h0
      have h1 : E.reset b' = E.reset (w.assure E c) := by
        cases stream
        · simpa [hr] using h0
        · simpa using h0
      cases o with
      | none => exact ⟨b', rfl, h1⟩
      | some n => exact ⟨b', rfl, h1⟩
    rw [LibWorld.run, hw.1, ih (fun c hc => ha c (by simp [hc])) _ (setBinding_at w hc _) hr]
    rw [step_ctx E grow _ (.apply i t s false) rfl (setBinding_at w hc _), step_ctx E grow w (.apply i t s false) rfl hc]
    simp only [ctxCall, applyCall, Bool.false_eq_true, if_false]
    rw [show (w.setBinding i (some b')).assure E { c with binding := some b' } = b' from rfl, hw.2]
    rw [show (w.setBinding i (some b')).shared = w.shared from rfl, show (w.setBinding i (some b')).arrays = w.arrays from rfl]
    rcases applyStubs E w.shared (E.reset (w.assure E c)) t (s.read w.arrays) with ⟨b'', o⟩
    cases o <;> rfl

/-- an engine whose state is the number of documents of the stream: the hypotheses of `apply_forgets` are met, and a streaming call depends on the documents before -/
def streamEngine : Engine Unit Unit Nat Nat where
  fresh _ _ := 0
  reset _ := 0
  flow _ b _ _ := (b, b, true)
  discardLocal n := n
  finish _ n := n
  push b _ := b + 1

theorem streamEngine_example :
    let w : LibWorld Unit Unit Nat Nat := { ctxs := [{ settings := () }], arrays := [[5]], shared := () }
    let s : Slice := ⟨0, 1, 1⟩
    (∀ f b t l, streamEngine.reset (applyStubs streamEngine f b t l).1 = streamEngine.reset b) ∧
    w.outs streamEngine (fun n _ => n) [.apply 0 7 s false, .apply 0 7 s true, .apply 0 7 s true, .apply 0 7 s false] = [.node 0, .node 1, .node 2, .node 0] :=
  ⟨fun _ _ _ _ => rfl, rfl⟩

end

end Spiff
