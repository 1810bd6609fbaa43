import Verif.Props.Closures
/-
C81, second part: closed functions give the same results wherever they are called; currying.
-/
namespace Spiff
open Spec

theorem sameRes_self {o : CRes CVal} (h : ∀ v, o = .ok v → Closed v) : SameRes SameVal o o := by
  cases o with
  | ok v => exact .ok (closed_same (h v rfl))
  | later => exact .later
  | fail => exact .fail
  | crash => exact .crash
  | fuel => exact .fuel

theorem sameRes_bind {α β : Type} {R : α → α → Prop} {S : β → β → Prop} {o o' : CRes α} {f f' : α → CRes β} (h : SameRes R o o')
    (hf : ∀ v w, R v w → SameRes S (f v) (f' w)) : SameRes S (o.bind f) (o'.bind f') := by
  cases h with
  | ok h => exact hf _ _ h
  | later => exact .later
  | fail => exact .fail
  | crash => exact .crash
  | fuel => exact .fuel

theorem evalAll_same {ev ev' : LEx → CRes CVal} : ∀ (l : List LEx), (∀ e ∈ l, SameRes SameVal (ev e) (ev' e)) →
    SameRes SameVals (evalAll ev l) (evalAll ev' l)
  | [], _ => .ok .nil
  | e :: r, h => by
    have ih := evalAll_same r (fun a ha => h a (List.mem_cons_of_mem _ ha))
    have he := h e (List.mem_cons_self ..)
    simp only [evalAll]
    generalize ev e = o at he
    generalize ev' e = o' at he
    cases he with
    | ok hv => exact sameRes_bind ih (fun vs ws hs => .ok (.cons hv hs))
    | later => exact sameRes_bind ih (fun vs ws hs => .later)
    | fail => exact .fail
    | crash => exact .crash
    | fuel => exact .fuel

theorem evalAll_length {ev : LEx → CRes CVal} : ∀ (l : List LEx) (vs : List CVal), evalAll ev l = .ok vs → vs.length = l.length
  | [], vs, h => by cases h; rfl
  | e :: r, vs, h => by
    simp only [evalAll] at h
    cases he : ev e with
    | ok v =>
      rw [he] at h
      cases hr : evalAll ev r with
      | ok ws => simp only [hr, CRes.bind] at h; cases h; simp [evalAll_length r ws hr]
      | _ => simp only [hr, CRes.bind] at h; cases h
    | later =>
      rw [he] at h
      cases hr : evalAll ev r with
      | ok ws => simp only [hr, CRes.bind] at h; cases h
      | _ => simp only [hr, CRes.bind] at h; cases h
    | _ => rw [he] at h; cases h

/-- the local scopes agree on what the expression mentions, and on the place of the function `_` -/
structure SameEnv (e : LEx) (σ σ' : Locals) : Prop where
  bound : ∀ x, Mentions x e → SameSome σ σ' x
  home : selfHome σ = selfHome σ'
  self : selfHome σ ≠ none

theorem SameEnv.sub {e e' : LEx} {σ σ' : Locals} (h : SameEnv e σ σ') (hs : ∀ x, Mentions x e' → Mentions x e) : SameEnv e' σ σ' :=
  ⟨fun x hx => h.bound x (hs x hx), h.home, h.self⟩

theorem overlay_some {σ σ' m m' : Locals} {x : String} (h : SameSome m m' x) : SameSome (overlay σ m) (overlay σ' m') x := by
  obtain ⟨v, w, h1, h2, h3⟩ := h
  exact ⟨v, w, by simp [mget_overlay, h1], by simp [mget_overlay, h2], h3⟩

theorem overlay_none {σ σ' m m' : Locals} {x : String} (h1 : mget m x = none) (h2 : mget m' x = none) (h : SameSome σ σ' x) :
    SameSome (overlay σ m) (overlay σ' m') x := by
  obtain ⟨v, w, h3, h4, h5⟩ := h
  exact ⟨v, w, by simp [mget_overlay, h1, h3], by simp [mget_overlay, h2, h4], h5⟩

theorem selfHome_overlay (σ m : Locals) : selfHome (overlay σ m) = if mget m SELF = none then selfHome σ else selfHome m := by
  unfold selfHome
  rw [mget_overlay]
  cases mget m SELF with
  | none => simp
  | some v => simp

theorem selfHome_mset (m : Locals) (v : CVal) : selfHome (mset m SELF v) = selfHome [(SELF, v)] := by
  unfold selfHome
  rw [mget_mset_self]
  simp [mget]

/-- a call in two places: the local scopes need not agree at all if the function is not inlined -/
theorem applyClo_same {ev ev' : Locals → LEx → CRes CVal} (hev : ∀ e σ σ', SameEnv e σ σ' → SameRes SameVal (ev σ e) (ev' σ' e))
    (σ σ' : Locals) (i c a : Bool) {f f' : CVal} (hf : SameVal f f')
    (hi : i = true → ∀ ps va ds st h b, f = .clo ps va ds st h b → selfHome st ≠ none ∧ (Mentions SELF b → SELF ∉ ps → SameSome σ σ' SELF))
    {nm nm' : List (String × CVal)} (hn : SameFields nm nm') {l l' : List CVal} (hl : SameVals l l') :
    SameRes SameVal (applyClo ev σ i c a f nm l) (applyClo ev' σ' i c a f' nm' l') := by
  have hf0 := hf
  cases hf with
  | data d => exact .fail
  | list h1 h2 => exact .fail
  | map h1 h2 => exact .fail
  | @clo ps va ds st st' h body c1 c2 c3 =>
    have hc := callClo_same hf0 c a hn hl
    simp only [applyClo]
    generalize callClo ps va ds st h body c a nm l = q at hc
    generalize callClo ps va ds st' h body c a nm' l' = q' at hc
    cases hc with
    | err => exact .fail
    | curried hg => exact .ok hg
    | @run m m' h1 h2 =>
      refine hev _ _ _ ?_
      cases i with
      | false =>
        refine ⟨fun x hx => overlay_some ?_, ?_, ?_⟩
        · by_cases hs : x = SELF
          · subst hs; exact sameSome_mset_self hf0
          · simp only [SameSome, Bool.false_eq_true, if_false, mget_mset_ne _ _ hs]
            by_cases hp : x ∈ ps
            · exact h1 x hp
            · rw [(h2 x hp).1, (h2 x hp).2]
              obtain ⟨a1, a2⟩ := c1 x hx hp hs
              obtain ⟨v, hv⟩ := Option.isSome_iff_exists.1 a1
              obtain ⟨w, hw⟩ := Option.isSome_iff_exists.1 a2
              exact ⟨v, w, hv, hw, c2 x hx hp v w hv hw⟩
        · exact selfHome_some (overlay_some (sameSome_mset_self hf0))
        · intro hx
          rw [selfHome_none, mget_overlay] at hx
          simp [mget_mset_self] at hx
      | true =>
        obtain ⟨hst, hsome⟩ := hi rfl ps va ds st h body rfl
        have hst' : selfHome st' ≠ none := by rw [← c3]; exact hst
        have hself : SELF ∉ ps → mget m SELF ≠ none ∧ mget m' SELF ≠ none := by
          intro hp
          rw [(h2 _ hp).1, (h2 _ hp).2]
          exact ⟨fun hx => hst (selfHome_none.2 hx), fun hx => hst' (selfHome_none.2 hx)⟩
        have hfound : mget m SELF ≠ none ∧ mget m' SELF ≠ none := by
          by_cases hp : SELF ∈ ps
          · obtain ⟨v, w, hv, hw, _⟩ := h1 _ hp
            simp [hv, hw]
          · exact hself hp
        have hhome : selfHome m = selfHome m' := by
          by_cases hp : SELF ∈ ps
          · exact selfHome_some (h1 _ hp)
          · rw [selfHome_get (h2 _ hp).1, selfHome_get (h2 _ hp).2, c3]
        simp only [if_true]
        refine ⟨fun x hx => overlay_some ?_, ?_, ?_⟩
        · by_cases hp : x ∈ ps
          · exact h1 x hp
          · simp only [SameSome]
            rw [(h2 x hp).1, (h2 x hp).2]
            have hb : (mget st x).isSome ∧ (mget st' x).isSome := by
              by_cases hs : x = SELF
              · subst hs
                rw [← (h2 _ hp).1, ← (h2 _ hp).2]
                exact ⟨Option.isSome_iff_ne_none.2 hfound.1, Option.isSome_iff_ne_none.2 hfound.2⟩
              · exact c1 x hx hp hs
            obtain ⟨v, hv⟩ := Option.isSome_iff_exists.1 hb.1
            obtain ⟨w, hw⟩ := Option.isSome_iff_exists.1 hb.2
            exact ⟨v, w, hv, hw, c2 x hx hp v w hv hw⟩
        · rw [selfHome_overlay, selfHome_overlay, if_neg hfound.1, if_neg hfound.2, hhome]
        · rw [selfHome_overlay, if_neg hfound.1]
          exact fun hx => hfound.1 (selfHome_none.1 hx)

theorem mapVals_same {ap ap' : List CVal → CRes CVal} (h : ∀ l l', SameVals l l' → SameRes SameVal (ap l) (ap' l')) (np : Nat) {l l' : List CVal}
    (hl : SameVals l l') : ∀ i, SameRes SameVals (mapVals ap np i l) (mapVals ap' np i l') := by
  induction hl with
  | nil => exact fun i => .ok .nil
  | @cons v w r r' hv hr ih =>
    intro i
    by_cases hn : np = 0
    · simp only [mapVals, hn, if_true]; exact .crash
    · simp only [mapVals, hn, if_false]
      have ha : SameVals (if np = 1 then [v] else [.data (.int i), v]) (if np = 1 then [w] else [.data (.int i), w]) := by
        split
        · exact .cons hv .nil
        · exact .cons (.data _) (.cons hv .nil)
      have ho := h _ _ ha
      generalize ap (if np = 1 then [v] else [.data (.int i), v]) = o at ho
      generalize ap' (if np = 1 then [w] else [.data (.int i), w]) = o' at ho
      cases ho with
      | @ok a b hab =>
        have hb : SameRes SameVals ((mapVals ap np (i + 1) r).bind (fun vs => .ok (a :: vs))) ((mapVals ap' np (i + 1) r').bind (fun vs => .ok (b :: vs))) :=
          sameRes_bind (ih (i + 1)) (fun _ _ hs => .ok (.cons hab hs))
        cases hab with
        | data d => cases d with
          | nil => exact ih (i + 1)
          | _ => exact hb
        | _ => exact hb
      | later => exact .later
      | fail => exact .fail
      | crash => exact .crash
      | fuel => exact .fuel

theorem arity_same {v w : CVal} (h : SameVal v w) : arity v = arity w := by cases h <;> rfl

theorem mapList_same {ap ap' : CVal → List CVal → CRes CVal} {c c' f f' : CVal} (hc : SameVal c c') (hf : SameVal f f')
    (h : ∀ l l', SameVals l l' → SameRes SameVal (ap f l) (ap' f' l')) : SameRes SameVal (mapList ap c f) (mapList ap' c' f') := by
  simp only [mapList, ← arity_same hf]
  cases arity f with
  | none => exact .fail
  | some np =>
    have hc0 := hc
    cases hc with
    | list h1 h2 =>
      dsimp only
      by_cases hn : 2 < np
      · simp only [hn, if_true]; exact .fail
      · simp only [hn, if_false]
        exact sameRes_bind (mapVals_same h np (sameVals_list.2 hc0) 0) (fun _ _ hs => .ok (sameVals_list.1 hs))
    | _ => exact .fail

theorem callWith_same {f f' : CRes CVal} {a a' : CRes (List CVal)} {k k' : CVal → List CVal → CRes CVal}
    (hf : SameRes SameVal f f') (ha : SameRes SameVals a a') (hk : ∀ v w l l', SameVal v w → SameVals l l' → SameRes SameVal (k v l) (k' w l')) :
    SameRes SameVal (callWith f a k) (callWith f' a' k') := by
  cases hf with
  | ok h =>
    simp only [callWith, arity_same h]
    split
    · exact sameRes_bind ha (fun _ _ hs => hk _ _ _ _ h hs)
    · exact .fail
  | later => exact sameRes_bind ha (fun _ _ _ => .later)
  | fail => exact .fail
  | crash => exact .crash
  | fuel => exact .fuel

/-- expressions give the same outcome in scopes that agree on what they mention, at places of the same document -/
theorem ceval_same {P : Prims} {D : Docs} (hP : PrimsOk P) (hD : DocsClosed D) {loc loc' : Loc} (hroot : ∀ p, D.root loc p = D.root loc' p) :
    ∀ n e σ σ', SameEnv e σ σ' → SameRes SameVal (ceval P D loc n σ e) (ceval P D loc' n σ' e)
  | 0, e, σ, σ', _ => .fuel
  | n + 1, e, σ, σ', henv => by
    have ih := ceval_same hP hD hroot n
    have ihl : ∀ l : List LEx, (∀ a ∈ l, ∀ x, Mentions x a → Mentions x e) → SameRes SameVals (evalAll (ceval P D loc n σ) l) (evalAll (ceval P D loc' n σ') l) :=
      fun l hl => evalAll_same l (fun a ha => ih a σ σ' (henv.sub (hl a ha)))
    cases e with
    | lit l => exact .ok (.data l)
    | ref x p =>
      obtain ⟨v, w, hv, hw, hs⟩ := henv.bound x (.ref p)
      simp only [ceval, hv, hw]
      exact hP.path v w p hs
    | self x p =>
      have h1 := henv.home
      have h2 := henv.self
      simp only [ceval]
      unfold selfHome at h1 h2
      cases hv : mget σ SELF with
      | none => rw [hv] at h2; exact absurd rfl h2
      | some v => cases hw : mget σ' SELF with
        | none => rw [hv, hw] at h1; cases v <;> simp at h1
        | some w =>
          rw [hv, hw] at h1
          cases v <;> cases w <;> simp only [Option.some.injEq, reduceCtorEq] at h1 <;> first | exact .crash | skip
          subst h1
          exact sameRes_self (fun v hv => hD.look _ _ _ v hv)
    | abs p =>
      simp only [ceval, ← hroot p]
      exact sameRes_self (fun v hv => hD.root _ _ v hv)
    | bin op a b =>
      simp only [ceval]
      refine sameRes_bind (ihl [a, b] (fun c hc x hx => ?_)) (fun vs ws hs => ?_)
      · simp only [List.mem_cons, List.not_mem_nil, or_false] at hc
        rcases hc with rfl | rfl
        · exact .binL hx
        · exact .binR hx
      · cases hs with
        | nil => exact .fail
        | cons h1 hs => cases hs with
          | nil => exact .fail
          | cons h2 hs => cases hs with
            | nil => exact hP.bin op _ _ _ _ h1 h2
            | cons _ _ => exact .fail
    | cond c t f =>
      simp only [ceval]
      refine sameRes_bind (ih c σ σ' (henv.sub (fun x hx => .condC hx))) (fun v w hvw => ?_)
      rw [hP.truth v w hvw]
      split
      · exact ih t σ σ' (henv.sub (fun x hx => .condT hx))
      · exact ih f σ σ' (henv.sub (fun x hx => .condF hx))
    | or a b =>
      simp only [ceval]
      have ha := ih a σ σ' (henv.sub (fun x hx => .orL hx))
      have hb := ih b σ σ' (henv.sub (fun x hx => .orR hx))
      generalize ceval P D loc n σ a = o at ha
      generalize ceval P D loc' n σ' a = o' at ha
      cases ha with
      | ok h => exact .ok h
      | later => exact .later
      | fail => exact hb
      | crash => exact .crash
      | fuel => exact .fuel
    | list l =>
      simp only [ceval]
      exact sameRes_bind (ihl l (fun a ha x hx => .list ha hx)) (fun _ _ hs => .ok (sameVals_list.1 hs))
    | fn m l =>
      simp only [ceval]
      exact sameRes_bind (ihl l (fun a ha x hx => .fn ha hx)) (fun _ _ hs => hP.fn m _ _ hs)
    | lam ps va ds b =>
      have h1 := henv.home
      have h2 := henv.self
      have hh : homeOf σ loc = homeOf σ' loc' := by
        unfold homeOf
        unfold selfHome at h1 h2
        cases hv : mget σ SELF with
        | none => rw [hv] at h2; exact absurd rfl h2
        | some v => cases hw : mget σ' SELF with
          | none => rw [hv, hw] at h1; cases v <;> simp at h1
          | some w =>
            rw [hv, hw] at h1
            cases v <;> cases w <;> simp only [Option.some.injEq, reduceCtorEq] at h1 <;> first | rfl | skip
            subst h1
            rfl
      simp only [ceval, ← hh]
      cases homeOf σ loc with
      | none => exact .crash
      | some h =>
        refine .ok (.clo (fun x hx hp hs => ?_) (fun x hx hp v w hv hw => ?_) h1)
        · obtain ⟨v, w, hv, hw, _⟩ := henv.bound x (.lam hx hp)
          simp [hv, hw]
        · obtain ⟨v1, w1, hv1, hw1, h3⟩ := henv.bound x (.lam hx hp)
          rw [hv] at hv1; rw [hw] at hw1
          cases hv1; cases hw1; exact h3
    | call c f ns as =>
      simp only [ceval]
      refine callWith_same (ih f σ σ' (henv.sub (fun x hx => .callF hx))) (ihl as (fun a ha x hx => .callA ha hx)) (fun v w l l' hv hl => ?_)
      exact applyClo_same ih σ σ' false c true hv (by simp) (setAllC_fields (fields_zip ns hl) .nil) (List.forall₂_drop _ hl)
    | scope fs b =>
      simp only [ceval]
      have hvs := ihl (fs.map (·.2)) (fun a ha x hx => by
        obtain ⟨f, hf, rfl⟩ := List.mem_map.1 ha
        exact .scopeV hf hx)
      cases ho : evalAll (ceval P D loc n σ) (fs.map (·.2)) with
      | ok vs => cases ho' : evalAll (ceval P D loc' n σ') (fs.map (·.2)) with
        | ok ws =>
          rw [ho, ho'] at hvs
          cases hvs with
          | ok hs =>
            have hlen : vs.length = fs.length := by simpa using evalAll_length _ _ ho
            have hlen' : ws.length = fs.length := by simpa using evalAll_length _ _ ho'
            have hk : ((fs.map (·.1)).zip vs).map (·.1) = fs.map (·.1) := by
              rw [zip_keys, hlen, List.take_of_length_le (by simp)]
            have hk' : ((fs.map (·.1)).zip ws).map (·.1) = fs.map (·.1) := by
              rw [zip_keys, hlen', List.take_of_length_le (by simp)]
            have hz := fields_zip (fs.map (·.1)) hs
            have hin : ∀ x, x ∈ fs.map (·.1) → SameSome (setAllC ((fs.map (·.1)).zip vs) []) (setAllC ((fs.map (·.1)).zip ws) []) x :=
              fun x hx => setAllC_some hz (by rwa [hk])
            have hout : ∀ x, x ∉ fs.map (·.1) → mget (setAllC ((fs.map (·.1)).zip vs) []) x = none ∧ mget (setAllC ((fs.map (·.1)).zip ws) []) x = none :=
              fun x hx => ⟨setAllC_not (by rwa [hk]), setAllC_not (by rwa [hk'])⟩
            refine ih b _ _ ⟨fun x hx => ?_, ?_, ?_⟩
            · by_cases hm : x ∈ fs.map (·.1)
              · exact overlay_some (hin x hm)
              · exact overlay_none (hout x hm).1 (hout x hm).2 (henv.bound x (.scopeE hx hm))
            · rw [selfHome_overlay, selfHome_overlay]
              by_cases hm : SELF ∈ fs.map (·.1)
              · obtain ⟨v, w, h1, h2, h3⟩ := hin _ hm
                rw [if_neg (by simp [h1]), if_neg (by simp [h2])]
                exact selfHome_some ⟨v, w, h1, h2, h3⟩
              · rw [if_pos (hout _ hm).1, if_pos (hout _ hm).2]
                exact henv.home
            · rw [selfHome_overlay]
              by_cases hm : SELF ∈ fs.map (·.1)
              · obtain ⟨v, w, h1, h2, h3⟩ := hin _ hm
                rw [if_neg (by simp [h1])]
                exact fun h => by rw [selfHome_none, h1] at h; cases h
              · rw [if_pos (hout _ hm).1]
                exact henv.self
        | _ => rw [ho, ho'] at hvs; cases hvs
      | later => rw [ho] at hvs; generalize evalAll (ceval P D loc' n σ') (fs.map (·.2)) = o at hvs; cases hvs; exact .later
      | fail => rw [ho] at hvs; generalize evalAll (ceval P D loc' n σ') (fs.map (·.2)) = o at hvs; cases hvs; exact .fail
      | crash => rw [ho] at hvs; generalize evalAll (ceval P D loc' n σ') (fs.map (·.2)) = o at hvs; cases hvs; exact .crash
      | fuel => rw [ho] at hvs; generalize evalAll (ceval P D loc' n σ') (fs.map (·.2)) = o at hvs; cases hvs; exact .fuel
    | mapping c f =>
      have hc := ih c σ σ' (henv.sub (fun x hx => .mapC hx))
      have hf := ih f σ σ' (henv.sub (fun x hx => .mapF hx))
      simp only [ceval, evalAll]
      -- an inlined function comes from the expression itself
      have hinl : ∀ fv, ceval P D loc n σ f = .ok fv → isLamEx f = true → ∀ ps va ds st h b, fv = .clo ps va ds st h b →
          selfHome st ≠ none ∧ (Mentions SELF b → SELF ∉ ps → SameSome σ σ' SELF) := by
        intro fv hfv hlam ps va ds st h b he
        subst he
        cases f with
        | lam ps1 va1 ds1 b1 =>
          cases n with
          | zero => cases hfv
          | succ n =>
            simp only [ceval] at hfv
            cases hh : homeOf σ loc with
            | none => rw [hh] at hfv; cases hfv
            | some h1 =>
              rw [hh] at hfv
              cases hfv
              exact ⟨henv.self, fun hm hp => henv.bound _ (.mapF (.lam hm hp))⟩
        | _ => cases hlam
      generalize ho : ceval P D loc n σ c = o at hc ⊢
      generalize ho' : ceval P D loc' n σ' c = o' at hc ⊢
      generalize hp : ceval P D loc n σ f = p at hf ⊢
      generalize hp' : ceval P D loc' n σ' f = p' at hf ⊢
      cases hc with
      | fail => exact .fail
      | crash => exact .crash
      | fuel => exact .fuel
      | later => cases hf with
        | ok h => exact .later
        | later => exact .later
        | fail => exact .fail
        | crash => exact .crash
        | fuel => exact .fuel
      | ok hcv => cases hf with
        | ok hfv =>
          exact mapList_same (ap := fun g args => applyClo (ceval P D loc n) σ (isLamEx f) false false g [] args)
            (ap' := fun g args => applyClo (ceval P D loc' n) σ' (isLamEx f) false false g [] args) hcv hfv (fun l l' hl => applyClo_same ih σ σ' (isLamEx f) false false hfv (hinl _ hp) .nil hl)
        | later => exact .later
        | fail => exact .fail
        | crash => exact .crash
        | fuel => exact .fuel

/-! ### Calls -/

theorem sameVals_self {l : List CVal} (h : ∀ v ∈ l, Closed v) : SameVals l l := by
  induction l with
  | nil => exact .nil
  | cons v r ih => exact .cons (closed_same (h v (List.mem_cons_self ..))) (ih (fun w hw => h w (List.mem_cons_of_mem _ hw)))

theorem sameFields_self {l : List (String × CVal)} (h : ∀ e ∈ l, Closed e.2) : SameFields l l := by
  induction l with
  | nil => exact .nil
  | cons v r ih => exact .cons ⟨rfl, closed_same (h v (List.mem_cons_self ..))⟩ (ih (fun w hw => h w (List.mem_cons_of_mem _ hw)))

/-- **C81**: a closed function called with closed arguments gives the same result at every place of the document and within every local scopes. -/
theorem call_anywhere {P : Prims} {D : Docs} (hP : PrimsOk P) (hD : DocsClosed D) {loc loc' : Loc} (hroot : ∀ p, D.root loc p = D.root loc' p)
    (n : Nat) (σ σ' : Locals) (curry auto : Bool) (f : CVal) (named : List (String × CVal)) (args : List CVal)
    (hf : Closed f) (hn : ∀ e ∈ named, Closed e.2) (ha : ∀ v ∈ args, Closed v) :
    SameRes SameVal (applyClo (ceval P D loc n) σ false curry auto f named args) (applyClo (ceval P D loc' n) σ' false curry auto f named args) :=
  applyClo_same (ceval_same hP hD hroot n) σ σ' false curry auto (closed_same hf) (by simp) (sameFields_self hn) (sameVals_self ha)

/-- data is the same only as itself -/
theorem sameVal_data {v : CVal} {d : Lit} : SameVal (.data d) v ↔ v = .data d :=
  ⟨fun h => by cases h; rfl, fun h => by subst h; exact .data d⟩

/-- **C81**: in particular a result that is data is equal everywhere: a call `.path(n=v, ..., v, ...)` with literal arguments. -/
theorem call_data_anywhere {P : Prims} {D : Docs} (hP : PrimsOk P) (hD : DocsClosed D) {loc loc' : Loc} (hroot : ∀ p, D.root loc p = D.root loc' p)
    (n : Nat) (σ σ' : Locals) (curry : Bool) (path names : List String) (args : List Lit) (d : Lit)
    (h : ceval P D loc n σ (.call curry (.abs path) names (args.map .lit)) = .ok (.data d)) :
    ceval P D loc' n σ' (.call curry (.abs path) names (args.map .lit)) = .ok (.data d) := by
  cases n with
  | zero => cases h
  | succ n =>
    have hargs : SameRes SameVals (evalAll (ceval P D loc n σ) (args.map .lit)) (evalAll (ceval P D loc' n σ') (args.map .lit)) := by
      refine evalAll_same _ (fun e he => ?_)
      obtain ⟨l, _, rfl⟩ := List.mem_map.1 he
      cases n with
      | zero => exact .fuel
      | succ n => exact .ok (.data l)
    have hfun : SameRes SameVal (ceval P D loc n σ (.abs path)) (ceval P D loc' n σ' (.abs path)) := by
      cases n with
      | zero => exact .fuel
      | succ n =>
        simp only [ceval, ← hroot path]
        exact sameRes_self (fun v hv => hD.root _ _ v hv)
    have hs : SameRes SameVal (ceval P D loc (n + 1) σ (.call curry (.abs path) names (args.map .lit)))
        (ceval P D loc' (n + 1) σ' (.call curry (.abs path) names (args.map .lit))) := by
      simp only [ceval]
      exact callWith_same hfun hargs (fun v w l l' hv hl =>
        applyClo_same (ceval_same hP hD hroot n) σ σ' false curry true hv (by simp) (setAllC_fields (fields_zip names hl) .nil) (List.forall₂_drop _ hl))
    rw [h] at hs
    generalize ceval P D loc' (n + 1) σ' (.call curry (.abs path) names (args.map .lit)) = o at hs
    cases hs with
    | ok hv => rw [sameVal_data.1 hv]

/-! ### Currying -/

theorem all_free (ps : List String) : ps.filter (fun p => (mget ([] : List (String × CVal)) p).isNone) = ps := by
  rw [List.filter_eq_self]
  intro _ _
  rfl

/-- what currying with positional arguments yields -/
theorem curry_value (ev : Locals → LEx → CRes CVal) (σ : Locals) (auto : Bool) (ps : List String) (ds : List (String × Lit)) (st : Locals) (h : Loc)
    (body : LEx) (as : List CVal) (hl : as.length ≤ ps.length) :
    applyClo ev σ false true auto (.clo ps false ds st h body) [] as =
      .ok (.clo (ps.drop as.length) false ds (setAllC (ps.zip as) st) h body) := by
  have : ¬ ps.length < as.length := by omega
  simp only [applyClo, callClo, packVals, Bool.false_and, Bool.false_eq_true, if_false, this, List.all_nil, Bool.not_true, Bool.true_or, if_true,
    all_free]
  rfl

theorem full_call (ev : Locals → LEx → CRes CVal) (σ : Locals) (auto : Bool) (ps : List String) (ds : List (String × Lit)) (st : Locals) (h : Loc)
    (body : LEx) (as : List CVal) (hl : as.length = ps.length) :
    applyClo ev σ false false auto (.clo ps false ds st h body) [] as =
      ev (overlay σ (mset (setAllC (ps.zip as) st) SELF (.clo ps false ds st h body))) body := by
  have h1 : ¬ ps.length < ps.length := by omega
  simp only [applyClo, callClo, packVals, Bool.false_and, Bool.false_eq_true, if_false, hl, h1, List.all_nil, Bool.not_true,
    decide_false, Bool.and_false, Bool.or_self, List.drop_length, fillC]
  rfl

/-- **C81**: currying: for a closed function without variadic parameter whose body does not mention `_`, giving the first arguments by currying and the
rest by a call is the same as giving them all at once. -/
theorem curry_call {P : Prims} {D : Docs} (hP : PrimsOk P) (hD : DocsClosed D) {loc loc' : Loc} (hroot : ∀ p, D.root loc p = D.root loc' p) (n : Nat)
    (σ σ' : Locals) (auto : Bool) (ps : List String) (ds : List (String × Lit)) (st : Locals) (h : Loc) (body : LEx) (as bs : List CVal)
    (hf : Closed (.clo ps false ds st h body)) (hself : ¬ Mentions SELF body) (ha : ∀ v ∈ as, Closed v) (hb : ∀ v ∈ bs, Closed v)
    (hl : as.length + bs.length = ps.length) :
    ∃ g, (∀ ev τ, applyClo ev τ false true auto (.clo ps false ds st h body) [] as = .ok g) ∧
      SameRes SameVal (applyClo (ceval P D loc n) σ false false auto (.clo ps false ds st h body) [] (as ++ bs))
        (applyClo (ceval P D loc' n) σ' false false auto g [] bs) := by
  refine ⟨_, fun ev τ => curry_value ev τ auto ps ds st h body as (by omega), ?_⟩
  rw [full_call _ _ _ _ _ _ _ _ _ (by simp [hl]), full_call _ _ _ _ _ _ _ _ _ (by simp; omega)]
  have hz : setAllC (ps.zip (as ++ bs)) st = setAllC ((ps.drop as.length).zip bs) (setAllC (ps.zip as) st) := by
    have h1 : ps.zip (as ++ bs) = (ps.take as.length).zip as ++ (ps.drop as.length).zip bs := by
      conv => lhs; rw [← List.take_append_drop as.length ps]
      rw [List.zip_append (by simp; omega)]
    have h2 : ps.zip as = (ps.take as.length).zip as := by
      conv => lhs; rw [← List.take_append_drop as.length ps]
      have := @List.zip_append _ _ (ps.take as.length) (ps.drop as.length) as [] (by simp; omega)
      simpa using this
    rw [h1, h2]
    simp [setAllC, List.foldl_append]
  rw [hz]
  generalize hinp : setAllC ((ps.drop as.length).zip bs) (setAllC (ps.zip as) st) = inp at hz
  refine ceval_same hP hD hroot n body _ _ ⟨fun x hx => ?_, ?_, ?_⟩
  · have hxs : x ≠ SELF := fun he => hself (he ▸ hx)
    have hab : SameFields (ps.zip (as ++ bs)) (ps.zip (as ++ bs)) := fields_zip _ (sameVals_self (by
      intro v hv
      rcases List.mem_append.1 hv with hv | hv
      · exact ha v hv
      · exact hb v hv))
    have : SameSome inp inp x := by
      rw [← hz]
      by_cases hp : x ∈ ps
      · exact setAllC_some hab (by rw [zip_keys, List.take_of_length_le (by simp; omega)]; exact hp)
      · cases hf with
        | clo c1 c2 =>
          obtain ⟨v, hv⟩ := Option.isSome_iff_exists.1 (c1 x hx hp hxs)
          exact setAllC_keep hab ⟨v, v, hv, hv, closed_same (c2 x hx hp v hv)⟩
    refine overlay_some ?_
    simpa only [SameSome, mget_mset_ne _ _ hxs] using this
  · simp only [selfHome_overlay, mget_mset_self, selfHome_mset]
    rfl
  · intro hx
    rw [selfHome_none, mget_overlay] at hx
    simp [mget_mset_self] at hx

/-- **C81**: a function without defaults and variadic parameter that is called with too few arguments is curried. -/
theorem auto_curry_call (ev : Locals → LEx → CRes CVal) (σ τ : Locals) (ps : List String) (st : Locals) (h : Loc) (body : LEx) (as : List CVal)
    (hl : as.length < ps.length) :
    applyClo ev σ false false true (.clo ps false [] st h body) [] as = applyClo ev τ false true true (.clo ps false [] st h body) [] as := by
  rw [curry_value _ _ _ _ _ _ _ _ _ (by omega)]
  have h1 : ¬ ps.length < as.length := by omega
  have h2 : lastFree ps ([] : List (String × Lit)) = true := by
    unfold lastFree
    cases ps.getLast? <;> rfl
  simp only [applyClo, callClo, packVals, Bool.false_and, Bool.false_eq_true, if_false, h1, List.all_nil, Bool.not_true, h2, hl, decide_true,
    List.isEmpty_nil, Bool.and_self, Bool.not_false, Bool.or_true, if_true, all_free]
  rfl

end Spiff
