import Verif.Props.Cidr
/-
C51: ipset and static_ips.
-/
namespace Spiff
open Spec

/-- an IPv4 address range: `n-m`, a single address, or a CIDR -/
inductive V4Range where
  | span (n m : Nat)
  | single (n : Nat)
  | cidr (base ones : Nat)

namespace V4Range

/-- the ranges accepted by the range parser (dynaml/ipset.go:27-78): start not after end, network
address without host bits -/
def Valid : V4Range → Prop
  | span n m => n ≤ m ∧ m < 2^32
  | single n => n < 2^32
  | cidr base ones => ones ≤ 32 ∧ base + 2^(32 - ones) ≤ 2^32

/-- representation in the code -/
def toRange : V4Range → IPRange
  | span n m => .span (v4 n) (v4 m) none
  | single n => .span (v4 n) (v4 n) (some 1)
  | cidr base ones => .cidr (v4Bytes base) ones

/-- the addresses of a range in ascending order -/
def addresses : V4Range → List (List Nat)
  | span n m => (List.range (m - n + 1)).map (fun k => v4 (n + k))
  | single n => [v4 n]
  | cidr base ones => (List.range (2^(32 - ones))).map (fun k => v4Bytes (base + k))

end V4Range

theorem ip4b_add (n k : Nat) (h : n + k < 2^32) : ipAdd (v4Bytes n) k = v4Bytes (n + k) := by
  apply ipNum_inj _ _ (ipAdd_bytes _ _ (v4Bytes_bytes n)) (v4Bytes_bytes _) (by rw [ipAdd_length]; rfl)
  have := ip_add_nonneg (v4Bytes n) k (v4Bytes_bytes n) (by omega) (by omega)
  rw [ipNum_v4Bytes n (by omega), show (v4Bytes n).length = 4 from rfl] at this
  rw [ipNum_v4Bytes (n + k) h]
  have h2 : ((256 : Int)^4) = 4294967296 := by decide +kernel
  rw [h2] at this
  omega

theorem range_size (r : V4Range) (h : r.Valid) : r.toRange.size = r.addresses.length := by
  cases r with
  | span n m =>
    simp only [V4Range.Valid] at h
    simp only [V4Range.toRange, IPRange.size, V4Range.addresses, List.length_map, List.length_range]
    rw [ip4_diff m n (by omega) (by omega), wrap64_of_in (by constructor <;> omega)]
    omega
  | single n => rfl
  | cidr base ones =>
    simp only [V4Range.Valid] at h
    simp [V4Range.toRange, IPRange.size, V4Range.addresses, numIP, h.1]

theorem range_get (r : V4Range) (h : r.Valid) (i : Nat) : r.toRange.get i = r.addresses[i]? := by
  unfold IPRange.get
  rw [range_size r h]
  by_cases hi : i < r.addresses.length
  · rw [if_neg (by omega)]
    cases r with
    | span n m =>
      simp only [V4Range.Valid] at h
      simp only [V4Range.addresses, List.length_map, List.length_range] at hi
      simp only [V4Range.toRange, V4Range.addresses]
      rw [ip4_add n i (by omega)]
      simp [hi]
    | single n =>
      simp only [V4Range.Valid] at h
      simp only [V4Range.addresses, List.length_singleton] at hi
      have : i = 0 := by omega
      subst this
      simp only [V4Range.toRange, V4Range.addresses]
      rw [ip4_add n 0 (by omega)]
      simp
    | cidr base ones =>
      simp only [V4Range.Valid] at h
      simp only [V4Range.addresses, List.length_map, List.length_range] at hi
      simp only [V4Range.toRange, V4Range.addresses]
      rw [ip4b_add base i (by omega)]
      simp [hi]
  · rw [if_pos (by omega)]
    rw [List.getElem?_eq_none (by omega)]

/-- all addresses of a sequence of ranges -/
def poolOf (rs : List V4Range) : List (List Nat) := (rs.map V4Range.addresses).flatten

theorem pickIP_pool (rs : List V4Range) (h : ∀ r ∈ rs, r.Valid) (offset i : Nat) (ho : offset ≤ i)
    (hs : offset + (poolOf rs).length < 2^63) (hi : i < 2^63) :
    (pickIP (rs.map V4Range.toRange) offset i).bind id = (poolOf rs)[i - offset]? := by
  induction rs generalizing offset with
  | nil => simp [pickIP, poolOf]
  | cons r rest ih =>
    have hr := h r (by simp)
    have hlen : (poolOf (r :: rest)).length = r.addresses.length + (poolOf rest).length := by simp [poolOf]
    rw [hlen] at hs
    have hpool : poolOf (r :: rest) = r.addresses ++ poolOf rest := by simp [poolOf]
    simp only [List.map_cons, pickIP]
    rw [range_size r hr, wrap64_of_in (by constructor <;> omega)]
    by_cases hlt : i < offset + r.addresses.length
    · rw [if_pos (by omega), wrap64_of_in (by constructor <;> omega),
        show (i : Int) - offset = ((i - offset : Nat) : Int) by omega, range_get r hr]
      rw [hpool, List.getElem?_append_left (by omega)]
      rfl
    · rw [if_neg (by omega), show (offset : Int) + r.addresses.length = ((offset + r.addresses.length : Nat) : Int) by push_cast; rfl]
      rw [ih (fun x hx => h x (by simp [hx])) _ (by omega) (by omega)]
      rw [hpool, List.getElem?_append_right (by omega)]
      congr 1
      omega

theorem mapM_congr_opt {α β : Type} (f g : α → Option β) (l : List α) (h : ∀ a ∈ l, f a = g a) : l.mapM f = l.mapM g := by
  induction l with
  | nil => rfl
  | cons a r ih =>
    rw [List.mapM_cons, List.mapM_cons, h a (by simp), ih (fun x hx => h x (by simp [hx]))]

/-- C51: `ipset` without indices returns the first `num` addresses of the ranges, in order; with
indices the addresses at the first `num` indices. It fails iff an index is out of range (or there
are too few indices). -/
theorem ipset_selects (rs : List V4Range) (h : ∀ r ∈ rs, r.Valid) (hs : (poolOf rs).length < 2^63)
    (num : Nat) (indices : Option (List Nat)) (hn : num < 2^63) (hx : ∀ ix, indices = some ix → ∀ i ∈ ix, i < 2^63) :
    ipset (rs.map V4Range.toRange) num indices =
      match indices with
      | none => (List.range num).mapM (fun i => (poolOf rs)[i]?)
      | some ix => if ix.length < num then none else (ix.take num).mapM (fun i => (poolOf rs)[i]?) := by
  unfold ipset
  cases indices with
  | none =>
    simp only
    apply mapM_congr_opt
    intro i hi
    have := pickIP_pool rs h 0 i (by omega) (by omega) (by have := List.mem_range.1 hi; omega)
    simpa using this
  | some ix =>
    simp only
    split
    · rfl
    · apply mapM_congr_opt
      intro i hi
      have := pickIP_pool rs h 0 i (by omega) (by omega) (hx ix rfl i (List.mem_of_mem_take hi))
      simpa using this

theorem mapM_some_iff {α β : Type} (f : α → Option β) (l : List α) (r : List β) :
    l.mapM f = some r ↔ List.Forall₂ (fun a b => f a = some b) l r := by
  induction l generalizing r with
  | nil =>
    simp only [List.mapM_nil]
    constructor
    · intro h; cases h; exact .nil
    · intro h; cases h; rfl
  | cons a l ih =>
    rw [List.mapM_cons]
    constructor
    · intro h
      cases ha : f a with
      | none => simp [ha] at h
      | some b =>
        cases hl : l.mapM f with
        | none => simp [ha, hl] at h
        | some bs =>
          simp [ha, hl] at h
          subst h
          exact .cons ha ((ih bs).1 hl)
    · intro h
      cases h with
      | cons h1 h2 => simp [h1, (ih _).2 h2]

/-- C51: `ipset` returns as many addresses as requested, all of them from the ranges, and
pairwise different ones if the indices are different and the ranges do not overlap. -/
theorem ipset_sound (rs : List V4Range) (h : ∀ r ∈ rs, r.Valid) (hs : (poolOf rs).length < 2^63)
    (num : Nat) (indices : Option (List Nat)) (hn : num < 2^63) (hx : ∀ ix, indices = some ix → ∀ i ∈ ix, i < 2^63)
    (ips : List (List Nat)) (hr : ipset (rs.map V4Range.toRange) num indices = some ips) :
    ips.length = num ∧ (∀ ip ∈ ips, ∃ r ∈ rs, ip ∈ r.addresses) ∧
    ((poolOf rs).Nodup → (∀ ix, indices = some ix → ix.Nodup) → ips.Nodup) := by
  have hsel : ∃ ix : List Nat, ix.length = num ∧ ix.mapM (fun i => (poolOf rs)[i]?) = some ips ∧
      ((∀ ix, indices = some ix → ix.Nodup) → ix.Nodup) := by
    rw [ipset_selects rs h hs num indices hn hx] at hr
    cases indices with
    | none => exact ⟨List.range num, by simp, hr, fun _ => List.nodup_range⟩
    | some ix =>
      simp only at hr
      split at hr
      · cases hr
      · exact ⟨ix.take num, by simp; omega, hr, fun hh => (hh ix rfl).sublist (List.take_sublist _ _)⟩
  obtain ⟨ix, hlen, hm, hnd⟩ := hsel
  have hf := (mapM_some_iff _ _ _).1 hm
  refine ⟨by rw [← hlen, hf.length_eq], ?_, ?_⟩
  · intro ip hip
    have hh := List.forall₂_iff_get.1 hf
    obtain ⟨k, hk, rfl⟩ := List.getElem_of_mem hip
    have hi := hh.2 k (by rw [hh.1]; exact hk) hk
    have := List.mem_of_getElem? hi
    unfold poolOf at this
    simp only [List.mem_flatten, List.mem_map] at this
    obtain ⟨l, ⟨r, hr, rfl⟩, hip⟩ := this
    exact ⟨r, hr, hip⟩
  · intro hp hix
    have hix' := hnd hix
    clear hm hlen hnd hr
    induction hf with
    | nil => exact List.nodup_nil
    | cons h1 h2 ih =>
      rw [List.nodup_cons] at hix' ⊢
      refine ⟨?_, ih hix'.2⟩
      intro hmem
      obtain ⟨k, hk, he⟩ := List.getElem_of_mem hmem
      have h3 := (List.forall₂_iff_get.1 h2)
      have h4 := h3.2 k (by rw [h3.1]; exact hk) hk
      simp only [List.get_eq_getElem] at h4
      rw [he] at h4
      rename_i a b l1 l2
      have hk' : k < l1.length := by rw [h3.1]; exact hk
      have hlt : a < (poolOf rs).length := by
        by_contra hc
        rw [List.getElem?_eq_none (by omega)] at h1; cases h1
      have : a = l1[k] := (List.getElem?_inj hlt hp).1 (h1.trans h4.symm)
      exact hix'.1 (this ▸ List.getElem_mem hk')

theorem v4_inj {n m : Nat} (hn : n < 2^32) (hm : m < 2^32) (h : v4 n = v4 m) : n = m := by
  have : ipNum (v4 n) = ipNum (v4 m) := by rw [h]
  rw [ipNum_v4 n hn, ipNum_v4 m hm] at this
  omega

theorem v4Bytes_inj {n m : Nat} (hn : n < 2^32) (hm : m < 2^32) (h : v4Bytes n = v4Bytes m) : n = m := by
  have : ipNum (v4Bytes n) = ipNum (v4Bytes m) := by rw [h]
  rwa [ipNum_v4Bytes n hn, ipNum_v4Bytes m hm] at this

/-- A single range never contains an address twice. -/
theorem range_nodup (r : V4Range) (h : r.Valid) : r.addresses.Nodup := by
  cases r with
  | span n m =>
    simp only [V4Range.Valid] at h
    refine List.Nodup.map_on ?_ List.nodup_range
    intro x hx y hy he
    have := v4_inj (by have := List.mem_range.1 hx; omega) (by have := List.mem_range.1 hy; omega) he
    omega
  | single n => simp [V4Range.addresses]
  | cidr base ones =>
    simp only [V4Range.Valid] at h
    refine List.Nodup.map_on ?_ List.nodup_range
    intro x hx y hy he
    have := v4Bytes_inj (by have := List.mem_range.1 hx; omega) (by have := List.mem_range.1 hy; omega) he
    omega

/-! ### static_ips -/

/-- C51: the pool range of `static_ips` from `n` to `m` lists all addresses in ascending order. -/
theorem ipRange_all (n m fuel : Nat) (h : n ≤ m) (hm : m < 2^32) (hf : m - n ≤ fuel) :
    ipRangeFrom (v4 m) fuel (v4 n) = (List.range (m - n + 1)).map (fun k => v4 (n + k)) := by
  induction fuel generalizing n with
  | zero =>
    have : n = m := by omega
    subst this
    simp [ipRangeFrom]
  | succ f ih =>
    rw [ipRangeFrom]
    by_cases he : v4 n = v4 m
    · have := v4_inj (by omega) hm he
      subst this
      simp
    · have hne : n ≠ m := fun hh => he (by rw [hh])
      rw [if_neg he, ip_inc _ (v4_bytes n)]
      have h1 := ip4_add n 1 (by omega)
      rw [show ((1 : Nat) : Int) = 1 from rfl] at h1
      rw [h1, ih (n + 1) (by omega) (by omega)]
      have hr : List.range (m - n + 1) = 0 :: (List.range (m - (n + 1) + 1)).map Nat.succ := by
        rw [show m - n + 1 = (m - (n + 1) + 1) + 1 by omega]
        exact List.range_succ_eq_map
      rw [hr, List.map_cons, List.map_map]
      refine congrArg₂ List.cons rfl (List.map_congr_left fun k _ => ?_)
      rw [Function.comp_apply, show n + 1 + k = n + k.succ by omega]

/-- C51: `static_ips` returns as many addresses as there are instances, namely those at the
first indices; it fails iff no index is given, an index is out of range or there are fewer indices than
instances. -/
theorem static_ips_selects (pool : List (List Nat)) (indices : List Nat) (instances : Nat) (ips : List (List Nat)) :
    staticIPs pool indices instances = some ips ↔
      indices ≠ [] ∧ instances ≤ indices.length ∧ (∀ i ∈ indices, i < pool.length) ∧
      ips.length = instances ∧ ∀ (k : Nat), k < instances → ips[k]? = (indices[k]?).bind (fun i => pool[i]?) := by
  unfold staticIPs
  by_cases h0 : indices = []
  · simp [h0]
  · rw [if_neg h0]
    cases hm : indices.mapM (fun i => pool[i]?) with
    | none =>
      simp only
      constructor
      · intro h; cases h
      · rintro ⟨hne0, hle, h, hrest⟩
        clear hle hrest hne0
        exfalso
        have : indices.mapM (fun i => pool[i]?) = some (indices.pmap (fun i (hi : i < pool.length) => pool[i]) h) := by
          rw [mapM_some_iff]
          clear hm h0
          induction indices with
          | nil => exact .nil
          | cons a r ih =>
            refine .cons ?_ (ih (fun i hi => h i (by simp [hi])))
            simp [h a (by simp)]
        rw [hm] at this; cases this
    | some all =>
      have hf := (mapM_some_iff _ _ _).1 hm
      have hlen := hf.length_eq
      have hget : ∀ k : Nat, all[k]? = (indices[k]?).bind (fun i => pool[i]?) := by
        intro k
        by_cases hk : k < all.length
        · have := (List.forall₂_iff_get.1 hf).2 k (by omega) hk
          simp only [List.get_eq_getElem] at this
          rw [List.getElem?_eq_getElem hk, List.getElem?_eq_getElem (by omega : k < indices.length)]
          exact this.symm
        · rw [List.getElem?_eq_none (by omega), List.getElem?_eq_none (by omega)]
          rfl
      have hin : ∀ i ∈ indices, i < pool.length := by
        intro i hi
        obtain ⟨k, hk, rfl⟩ := List.getElem_of_mem hi
        have := hget k
        rw [List.getElem?_eq_getElem (by omega : k < all.length), List.getElem?_eq_getElem hk] at this
        simp only [Option.bind_some] at this
        by_contra hc
        rw [List.getElem?_eq_none (by omega)] at this; cases this
      simp only
      constructor
      · intro h
        split at h
        · cases h
        · cases h
          refine ⟨h0, by omega, hin, by simp; omega, ?_⟩
          intro k hk
          rw [List.getElem?_take, if_pos hk, hget]
      · rintro ⟨_, h1, _, h2, h3⟩
        rw [if_neg (by omega)]
        congr 1
        apply List.ext_getElem?
        intro k
        by_cases hk : k < instances
        · rw [List.getElem?_take, if_pos hk, h3 k hk, hget]
        · rw [List.getElem?_take, if_neg hk, List.getElem?_eq_none (by omega)]

/-! ### non-triviality -/
example : ipset ([V4Range.span 10 11, .single 20].map V4Range.toRange) 3 none = some [v4 10, v4 11, v4 20] := by decide +kernel
example : ipset ([V4Range.span 10 11, .single 20].map V4Range.toRange) 2 (some [2, 0]) = some [v4 20, v4 10] := by decide +kernel
example : ipset ([V4Range.span 10 11, .single 20].map V4Range.toRange) 4 none = none := by decide +kernel
example : staticIPs [v4 1, v4 2, v4 3] [2, 0, 1] 2 = some [v4 3, v4 1] := by decide +kernel

end Spiff
