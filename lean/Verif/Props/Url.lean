import Verif.Spec.Url
import Verif.Lemmas.Maps
/-
C105: parsing URLs; C106: password hashes by bcrypt.
-/
namespace Spiff
open Spec

section
variable {E : Type}

theorem urlQuery_get (src : String) (q : List (String × List String)) : ∀ (m : List (String × Node E)) (k : String),
    (∀ n, mget (urlQuery src q m) k = some n → (∃ l, (k, l) ∈ q ∧ TextList l n.val) ∨ mget m k = some n) ∧
    ((∃ l, (k, l) ∈ q) ∨ (∃ n, mget m k = some n) → ∃ n, mget (urlQuery src q m) k = some n) := by
  induction q with
  | nil => intro m k; exact ⟨fun n h => .inr h, fun h => h.elim (fun ⟨_, h⟩ => (nomatch h)) id⟩
  | cons e r ih =>
    obtain ⟨k0, l0⟩ := e
    intro m k
    rw [urlQuery]
    have ih := ih (mset m k0 (Node.new (.list (l0.map (fun a => Node.new (.str a) src))) src)) k
    have hg := mget_mset m k0 k (Node.new (.list (l0.map (fun a => Node.new (.str a) src))) src)
    constructor
    · intro n h
      rcases ih.1 n h with ⟨l, h1, h2⟩ | h
      · exact .inl ⟨l, List.mem_cons_of_mem _ h1, h2⟩
      · by_cases hk : k = k0
        · subst hk
          rw [mget_mset_self] at h
          cases h
          exact .inl ⟨l0, by simp, _, rfl, by simp only [List.map_map]; rfl⟩
        · rw [mget_mset_ne _ _ hk] at h
          exact .inr h
    · intro h
      apply ih.2
      by_cases hk : k = k0
      · subst hk; exact .inr ⟨_, mget_mset_self _ _ _⟩
      · rcases h with ⟨l, h⟩ | h
        · rcases List.mem_cons.1 h with h | h
          · cases h; exact absurd rfl hk
          · exact .inl ⟨l, h⟩
        · rw [mget_mset_ne _ _ hk]; exact .inr h

theorem parseInt_empty : parseInt "" = none := by decide

theorem urlPort_get (src : String) (u : UrlParts) (m : List (String × Node E)) (k : String) : mget (urlPort src u m) k =
    if k = "port" then match parseInt u.port with
      | some p => some (Node.new (.int p) src)
      | none => mget m k
    else mget m k := by
  unfold urlPort
  by_cases hp : u.port = ""
  · rw [if_neg (by simpa using hp), hp, parseInt_empty]; simp
  · rw [if_pos hp]
    by_cases hk : k = "port"
    · subst hk
      rw [if_pos rfl]
      cases parseInt u.port with
      | none => rfl
      | some p => exact mget_mset_self _ _ _
    · rw [if_neg hk]
      cases parseInt u.port with
      | none => rfl
      | some p => exact mget_mset_ne _ _ hk

theorem urlUser_get (src : String) (u : UrlParts) (m : List (String × Node E)) (k : String) (hm : mget m "userinfo" = none) :
    (k ≠ "userinfo" → mget (urlUser src u m) k = mget m k) ∧
    (∀ n, mget (urlUser src u m) "userinfo" = some n → UrlField u "userinfo" n.val) ∧
    ((∃ w, u.user = some w) → ∃ n, mget (urlUser src u m) "userinfo" = some n) := by
  unfold urlUser
  rcases hu : u.user with _ | ⟨name, pass⟩
  · refine ⟨fun _ => rfl, fun n h => ?_, fun ⟨w, h⟩ => (nomatch h)⟩
    rw [show mget m "userinfo" = some n from h] at hm
    cases hm
  · refine ⟨fun hk => mget_mset_ne _ _ hk, fun n h => ?_, fun _ => ⟨_, mget_mset_self _ _ _⟩⟩
    simp only at h
    rw [mget_mset_self] at h
    cases h
    refine .userinfo name pass _ hu ?_
    cases pass with
    | none =>
      refine ⟨fun k n h => ?_, fun k v h => ?_⟩
      · simp only at h
        rw [mget_mset] at h
        split at h
        · rename_i hk; subst hk; cases h; exact .username
        · cases h
      · cases h with
        | username => exact ⟨_, mget_mset_self _ _ _⟩
        | password w h => cases h
    | some w =>
      refine ⟨fun k n h => ?_, fun k v h => ?_⟩
      · simp only at h
        rw [mget_mset] at h
        split at h
        · rename_i hk; subst hk; cases h; exact .password w rfl
        · rw [mget_mset] at h
          split at h
          · rename_i hk; subst hk; cases h; exact .username
          · cases h
      · cases h with
        | username => exact ⟨Node.new (.str name) src, by simp only; rw [mget_mset_ne _ _ (by decide), mget_mset_self]⟩
        | password w h => exact ⟨_, mget_mset_self _ _ _⟩

/-- **C105**: the fields of the result are the parts of the URL. -/
theorem parseurl_fields (parse : String → Option UrlParts) (src : String) (args : List (Val E)) (r : Val E) :
    funcParseUrl parse src args = .ok r → ∃ s u m, args = [.str s] ∧ parse s = some u ∧ r = .map m ∧ HasFields (UrlField u) m := by
  intro h
  unfold funcParseUrl at h
  split at h
  · rename_i s
    split at h
    · rename_i u hu
      cases h
      refine ⟨s, u, _, rfl, hu, rfl, ?_⟩
      have hnone : mget (mset (mset (urlPort src u (urlBase src u)) "query" (Node.new (.str u.rawQuery) src))
          "values" (Node.new (.map (urlQuery src u.query [])) src) : List (String × Node E)) "userinfo" = none := by
        rw [mget_mset_ne _ _ (by decide), mget_mset_ne _ _ (by decide), urlPort_get, if_neg (by decide)]
        rfl
      constructor
      · intro k n h
        unfold urlMap at h
        by_cases hk : k = "userinfo"
        · subst hk
          exact (urlUser_get src u _ "" hnone).2.1 n h
        · rw [(urlUser_get src u _ k hnone).1 hk, mget_mset] at h
          split at h
          · rename_i hk; subst hk; cases h
            refine .values _ (fun k => ⟨fun n hn => ?_, fun hn => (urlQuery_get src u.query [] k).2 (.inl hn)⟩)
            rcases (urlQuery_get src u.query [] k).1 n hn with h | h
            · exact h
            · cases h
          · rw [mget_mset] at h
            split at h
            · rename_i hk; subst hk; cases h; exact .query
            · rw [urlPort_get] at h
              have hbase : mget (urlBase src u) k = some n → UrlField u k n.val := by
                intro h
                unfold urlBase at h
                rw [mget_mset] at h
                split at h
                · rename_i hk; subst hk; cases h; exact .fragment
                · rw [mget_mset] at h
                  split at h
                  · rename_i hk; subst hk; cases h; exact .path
                  · rw [mget_mset] at h
                    split at h
                    · rename_i hk; subst hk; cases h; exact .host
                    · rw [mget_mset] at h
                      split at h
                      · rename_i hk; subst hk; cases h; exact .scheme
                      · cases h
              split at h
              · rename_i hk; subst hk
                split at h
                · rename_i p hp; cases h; exact .port p hp
                · exact hbase h
              · exact hbase h
      · intro k v h
        unfold urlMap
        by_cases hk : k = "userinfo"
        · subst hk
          generalize hkey : "userinfo" = key at h
          cases h <;> first | (exact absurd hkey (by decide)) | skip
          rename_i name pass m hu _
          exact (urlUser_get src u _ "" hnone).2.2 ⟨_, hu⟩
        · rw [(urlUser_get src u _ k hnone).1 hk]
          cases h with
          | scheme => exact ⟨Node.new (.str u.scheme) src, by rw [mget_mset_ne _ _ (by decide), mget_mset_ne _ _ (by decide), urlPort_get, if_neg (by decide)]; rfl⟩
          | host => exact ⟨Node.new (.str u.host) src, by rw [mget_mset_ne _ _ (by decide), mget_mset_ne _ _ (by decide), urlPort_get, if_neg (by decide)]; rfl⟩
          | path => exact ⟨Node.new (.str u.path) src, by rw [mget_mset_ne _ _ (by decide), mget_mset_ne _ _ (by decide), urlPort_get, if_neg (by decide)]; rfl⟩
          | fragment => exact ⟨Node.new (.str u.fragment) src, by rw [mget_mset_ne _ _ (by decide), mget_mset_ne _ _ (by decide), urlPort_get, if_neg (by decide)]; rfl⟩
          | port p hp => exact ⟨Node.new (.int p) src, by rw [mget_mset_ne _ _ (by decide), mget_mset_ne _ _ (by decide), urlPort_get, if_pos rfl, hp]⟩
          | query => exact ⟨Node.new (.str u.rawQuery) src, by rw [mget_mset_ne _ _ (by decide), mget_mset_self]⟩
          | values m h => exact ⟨_, mget_mset_self _ _ _⟩
          | userinfo _ _ _ _ _ => exact absurd rfl hk
    · cases h
  · cases h

/-- **C105**: the call succeeds exactly for the text of a URL. -/
theorem parseurl_succeeds (parse : String → Option UrlParts) (src : String) (args : List (Val E)) :
    (∃ r, funcParseUrl parse src args = .ok r) ↔ ∃ s u, args = [.str s] ∧ parse s = some u := by
  constructor
  · rintro ⟨r, h⟩
    obtain ⟨s, u, m, h1, h2, -⟩ := parseurl_fields parse src args r h
    exact ⟨s, u, h1, h2⟩
  · rintro ⟨s, u, rfl, h⟩
    simp only [funcParseUrl, h]
    exact ⟨_, rfl⟩

/-- **C105**: a port which is no number of 64 bits is dropped without an error. -/
theorem parseurl_port (parse : String → Option UrlParts) (src : String) (s : String) (u : UrlParts) (h : parse s = some u) :
    ∃ m : List (String × Node E), funcParseUrl parse src [.str s] = .ok (.map m) ∧ (mget m "port" = none ↔ parseInt u.port = none) := by
  obtain ⟨r, hr⟩ := (parseurl_succeeds (E := E) parse src [.str s]).2 ⟨s, u, rfl, h⟩
  obtain ⟨s', u', m, h1, h2, rfl, h3⟩ := parseurl_fields parse src _ r hr
  cases h1
  rw [h] at h2
  cases h2
  refine ⟨m, hr, fun hn => ?_, fun hn => ?_⟩
  · cases hp : parseInt u.port with
    | none => rfl
    | some p =>
      obtain ⟨n, h⟩ := h3.2 _ _ (.port p hp)
      rw [hn] at h
      cases h
  · cases hg : mget m "port" with
    | none => rfl
    | some n =>
      have := h3.1 _ _ hg
      generalize hkey : "port" = key at this
      generalize n.val = v at this
      cases this <;> first | (exact absurd hkey (by decide)) | skip
      rename_i p hp
      rw [hn] at hp
      cases hp

/-- a URL -/
def toyUrl : UrlParts :=
  { scheme := "http", host := "a.b", path := "/c", fragment := "d", port := "9223372036854775808", rawQuery := "x=1&x=2", query := [("x", ["1", "2"])]
    user := some ("me", none) }

/-- a URL with a port beyond 64 bits is accepted, the port is missing -/
theorem toy_url : ∃ m : List (String × Node Unit), funcParseUrl (fun _ => some toyUrl) "" [.str "u"] = .ok (.map m) ∧ mget m "port" = none ∧
    mget m "host" = some (Node.new (.str "a.b") "") := ⟨_, rfl, by decide +kernel, by rfl⟩

/-- **C106**: a call of `bcrypt` succeeds exactly for a text and an optional integer accepted by the package; the result is the hash for the cost. -/
theorem bcrypt_iff (generate : String → Int → Option String) (args : List (Val E)) (r : Val E) :
    funcBcrypt generate args = .ok r ↔ ∃ s more c h, args = .str s :: more ∧ BcryptCost more c ∧ generate s c = some h ∧ r = .str h := by
  constructor
  · intro h
    unfold funcBcrypt at h
    split at h
    · split at h
      · rename_i s _ x hx; cases h; exact ⟨_, _, _, x, rfl, .default, hx, rfl⟩
      · cases h
    · split at h
      · rename_i s c _ x hx; cases h; exact ⟨_, _, _, x, rfl, .given c, hx, rfl⟩
      · cases h
    · cases h
  · rintro ⟨s, more, c, x, rfl, hc, hx, rfl⟩
    cases hc <;> simp only [funcBcrypt, hx]

/-- **C106**: a check of two texts never fails; other arguments are errors. -/
theorem bcrypt_check_iff (compare : String → String → Bool) (args : List (Val E)) (r : Val E) :
    funcBcryptCheck compare args = .ok r ↔ ∃ passwd hash, args = [.str passwd, .str hash] ∧ r = .bool (compare hash passwd) := by
  constructor
  · intro h
    unfold funcBcryptCheck at h
    split at h
    · cases h; exact ⟨_, _, rfl, rfl⟩
    · cases h
  · rintro ⟨p, x, rfl, rfl⟩; rfl

/-- **C106**: a password is accepted for every hash made of it. -/
theorem bcrypt_accepts (generate : String → Int → Option String) (compare : String → String → Bool)
    (law : ∀ s c h, generate s c = some h → compare h s = true) (s : String) (more : List (Val E)) (hash : Val E)
    (h : funcBcrypt generate (.str s :: more) = .ok hash) : funcBcryptCheck compare [.str s, hash] = .ok (.bool true) := by
  obtain ⟨s', more', c, x, h1, -, h2, rfl⟩ := (bcrypt_iff generate _ hash).1 h
  cases h1
  simp only [funcBcryptCheck, law _ _ _ h2]

/-- hashes accepted and refused -/
theorem toy_bcrypt : let generate := fun (s : String) (c : Int) => if c < 32 then some ("h" ++ s) else none
    let compare := fun (h s : String) => decide (h = "h" ++ s)
    (∀ s c h, generate s c = some h → compare h s = true) ∧ funcBcrypt (E := Unit) generate [.str "a"] = .ok (.str "ha") ∧
    funcBcrypt (E := Unit) generate [.str "a", .int 40] = .err ∧ funcBcryptCheck (E := Unit) compare [.str "b", .str "ha"] = .ok (.bool false) := by
  refine ⟨fun s c h hh => ?_, rfl, rfl, rfl⟩
  simp only at hh
  split at hh
  · cases hh; simp
  · cases hh

end
end Spiff
