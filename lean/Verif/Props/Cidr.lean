import Verif.Props.IP
import Mathlib.Tactic.Ring
import Mathlib.Tactic.Positivity
import Mathlib.Data.List.Induction
/-
C51, C58: CIDR functions, address sets.
-/
namespace Spiff
open Spec

theorem ipNum_cons (b : Nat) (r : List Nat) : ipNum (b :: r) = b * 256^r.length + ipNum r := by
  induction r using List.reverseRecOn with
  | nil => simp [ipNum]
  | append_singleton r c ih =>
    rw [← List.cons_append, ipNum_concat, ih, ipNum_concat, List.length_append, List.length_singleton, pow_succ]
    ring

theorem and_maskByte (n : Fin 9) (b : Fin 256) :
    (b.val &&& maskByte n.val) = b.val / 2^(8 - n.val) * 2^(8 - n.val) := by
  revert n b; decide +kernel

theorem or_maskByte (n : Fin 9) (b : Fin 256) :
    ((b.val &&& maskByte n.val) ||| (255 - maskByte n.val)) = b.val / 2^(8 - n.val) * 2^(8 - n.val) + (2^(8 - n.val) - 1) := by
  revert n b; decide +kernel

theorem and_mask (n b : Nat) (hb : b < 256) (hn : n ≤ 8) : b &&& maskByte n = b / 2^(8 - n) * 2^(8 - n) :=
  and_maskByte ⟨n, by omega⟩ ⟨b, hb⟩

theorem or_mask (n b : Nat) (hb : b < 256) (hn : n ≤ 8) :
    (b &&& maskByte n) ||| (255 - maskByte n) = b / 2^(8 - n) * 2^(8 - n) + (2^(8 - n) - 1) :=
  or_maskByte ⟨n, by omega⟩ ⟨b, hb⟩

theorem maskByte_ge (n : Nat) (h : 8 ≤ n) : maskByte n = maskByte 8 := by simp [maskByte, h]

theorem cidrMask_length (ones len : Nat) : (cidrMask ones len).length = len := by
  induction len generalizing ones with
  | zero => rfl
  | succ n ih => simp [cidrMask, ih]

theorem minIP_length (ip : List Nat) (ones : Nat) : (minIP ip (cidrMask ones ip.length)).length = ip.length := by
  simp [minIP, bytesOp, cidrMask_length]

theorem maxIP_length (ip : List Nat) (ones : Nat) : (maxIP ip (cidrMask ones ip.length)).length = ip.length := by
  simp [maxIP, bytesOp, cidrMask_length]

theorem minIP_cons (b : Nat) (r : List Nat) (ones : Nat) :
    minIP (b :: r) (cidrMask ones (b :: r).length) = (b &&& maskByte ones) :: minIP r (cidrMask (ones - 8) r.length) := by
  simp [minIP, bytesOp, cidrMask]

theorem maxIP_cons (b : Nat) (r : List Nat) (ones : Nat) :
    maxIP (b :: r) (cidrMask ones (b :: r).length) =
      ((b &&& maskByte ones) ||| (255 - maskByte ones)) :: maxIP r (cidrMask (ones - 8) r.length) := by
  simp [maxIP, bytesOp, cidrMask]

theorem div_split (b p x q k : Nat) (hx : x < p) (hp : p = q * k) (hk : 0 < k) :
    (b * p + x) / k * k = b * p + x / k * k := by
  subst hp
  have : b * (q * k) + x = x + (b * q) * k := by ring
  rw [this, Nat.add_mul_div_right _ _ hk]
  ring

/-- C58: the lowest address of a network: the number with all host bits cleared. -/
theorem min_ip_num (ip : List Nat) (ones : Nat) (h : Bytes ip) (ho : ones ≤ 8 * ip.length) :
    ipNum (minIP ip (cidrMask ones ip.length)) = ipNum ip / 2^(8 * ip.length - ones) * 2^(8 * ip.length - ones) := by
  induction ip generalizing ones with
  | nil => simp [minIP, bytesOp, ipNum]
  | cons b r ih =>
    have hb : b < 256 := h b (by simp)
    have hr : Bytes r := fun x hx => h x (by simp [hx])
    have hlt := ipNum_lt r hr
    rw [minIP_cons, ipNum_cons, minIP_length, ih (ones - 8) hr (by simp at ho; omega), ipNum_cons]
    have h256 : (256 : Nat) ^ r.length = 2^(8 * r.length) := by
      rw [show (256 : Nat) = 2^8 from rfl, ← pow_mul]
    simp only [List.length_cons] at ho ⊢
    by_cases h8 : 8 ≤ ones
    · rw [maskByte_ge ones h8, and_mask 8 b hb (by omega)]
      simp only [Nat.sub_self, pow_zero, Nat.div_one, Nat.mul_one]
      rw [show 8 * (r.length + 1) - ones = 8 * r.length - (ones - 8) by omega]
      rw [div_split b (256^r.length) (ipNum r) (2^(ones - 8)) _ hlt ?_ (by positivity)]
      rw [h256, ← pow_add]
      congr 1
      omega
    · rw [and_mask ones b hb (by omega)]
      rw [show ones - 8 = 0 by omega, Nat.sub_zero, ← h256]
      rw [show 8 * (r.length + 1) - ones = (8 - ones) + 8 * r.length by omega, pow_add, ← h256]
      rw [Nat.div_eq_of_lt hlt, Nat.zero_mul, Nat.add_zero]
      rw [Nat.mul_comm (2^(8 - ones)) (256^r.length), ← Nat.div_div_eq_div_mul,
        show b * 256^r.length + ipNum r = ipNum r + b * 256^r.length by omega,
        Nat.add_mul_div_right _ _ (by positivity), Nat.div_eq_of_lt hlt, Nat.zero_add]
      ring

/-- C58: the highest address of a network: all host bits set. -/
theorem max_ip_num (ip : List Nat) (ones : Nat) (h : Bytes ip) (ho : ones ≤ 8 * ip.length) :
    ipNum (maxIP ip (cidrMask ones ip.length)) =
      ipNum (minIP ip (cidrMask ones ip.length)) + (2^(8 * ip.length - ones) - 1) := by
  induction ip generalizing ones with
  | nil => simp at ho; subst ho; simp [minIP, maxIP, bytesOp, ipNum]
  | cons b r ih =>
    have hb : b < 256 := h b (by simp)
    have hr : Bytes r := fun x hx => h x (by simp [hx])
    rw [minIP_cons, maxIP_cons, ipNum_cons, ipNum_cons, minIP_length, maxIP_length, ih (ones - 8) hr (by simp at ho; omega)]
    have h256 : (256 : Nat) ^ r.length = 2^(8 * r.length) := by
      rw [show (256 : Nat) = 2^8 from rfl, ← pow_mul]
    simp only [List.length_cons] at ho ⊢
    by_cases h8 : 8 ≤ ones
    · rw [maskByte_ge ones h8, or_mask 8 b hb (by omega), and_mask 8 b hb (by omega)]
      simp only [Nat.sub_self, pow_zero, Nat.div_one, Nat.mul_one, Nat.add_zero]
      rw [show 8 * (r.length + 1) - ones = 8 * r.length - (ones - 8) by omega]
      omega
    · rw [or_mask ones b hb (by omega), and_mask ones b hb (by omega)]
      rw [show ones - 8 = 0 by omega, Nat.sub_zero, ← h256]
      rw [show 8 * (r.length + 1) - ones = (8 - ones) + 8 * r.length by omega, pow_add, ← h256]
      have h1 : 0 < 256^r.length := by positivity
      have h2 : 0 < 2^(8 - ones) := by positivity
      generalize 256^r.length = P at *
      generalize 2^(8 - ones) = Q at *
      obtain ⟨Q', rfl⟩ : ∃ Q', Q = Q' + 1 := ⟨Q - 1, by omega⟩
      obtain ⟨P', rfl⟩ : ∃ P', P = P' + 1 := ⟨P - 1, by omega⟩
      have : (Q' + 1) * (P' + 1) - 1 = Q' * (P' + 1) + P' := by
        rw [Nat.add_mul]; omega
      rw [this]
      simp only [Nat.add_sub_cancel]
      ring

theorem minIP_bytes (ip mask : List Nat) (h : Bytes ip) : Bytes (minIP ip mask) := by
  intro x hx
  simp only [minIP, bytesOp, List.mem_map] at hx
  obtain ⟨⟨a, m⟩, hm, rfl⟩ := hx
  have := h a (List.of_mem_zip hm).1
  exact Nat.lt_of_le_of_lt Nat.and_le_left this

/-- C58: a network has `2^(host bits)` addresses, which is what `num_ip` reports for IPv4. -/
theorem num_ip_v4 (ip : List Nat) (ones : Nat) (h : Bytes ip) (hl : ip.length = 4) (ho : ones ≤ 32) :
    numIP ones = (ipNum (maxIP ip (cidrMask ones 4)) : Int) - ipNum (minIP ip (cidrMask ones 4)) + 1 := by
  have := max_ip_num ip ones h (by omega)
  rw [hl, show 8 * 4 - ones = 32 - ones by omega] at this
  rw [this]
  have h2 : 0 < 2^(32 - ones) := by positivity
  have h3 : ((2^(32 - ones) : Nat) : Int) = (2 : Int)^(32 - ones) := by push_cast; rfl
  simp only [numIP, ho, if_true]
  rw [← h3]
  push_cast
  rw [Int.natCast_sub (by exact h2)]
  push_cast
  omega

/-- C58, limit: for IPv6 networks with more than 32 network bits `num_ip` reports 0. -/
theorem num_ip_v6_zero (ones : Nat) (h : 32 < ones) : numIP ones = 0 := by
  unfold numIP; rw [if_neg (by omega)]

/-- C58: an address lies in a network iff it lies between its lowest and highest address (IPv4,
both given by four bytes; the 16 byte form is handled by `contains_ip_v4`). -/
theorem contains_iff_between (net ip : List Nat) (ones : Nat) (hn : Bytes net) (hi : Bytes ip)
    (hl : net.length = 4) (hl' : ip.length = 4) (ho : ones ≤ 32) :
    cidrContains net (cidrMask ones 4) ip = true ↔
      ipNum (minIP net (cidrMask ones 4)) ≤ ipNum ip ∧ ipNum ip ≤ ipNum (maxIP net (cidrMask ones 4)) := by
  have e1 := max_ip_num net ones hn (by omega)
  have e2 := min_ip_num net ones hn (by omega)
  have e3 := min_ip_num ip ones hi (by omega)
  rw [hl] at e1 e2
  rw [hl'] at e3
  have hc : cidrContains net (cidrMask ones 4) ip = true ↔ minIP net (cidrMask ones 4) = minIP ip (cidrMask ones 4) := by
    have h4 : (cidrMask ones 4).length = 4 := cidrMask_length _ _
    simp [cidrContains, to4, hl, hl', h4, minIP]
  rw [hc]
  have hlen : (minIP net (cidrMask ones 4)).length = (minIP ip (cidrMask ones 4)).length := by
    have h1 := minIP_length net ones
    have h2 := minIP_length ip ones
    rw [hl] at h1; rw [hl'] at h2
    rw [h1, h2]
  have hinj : minIP net (cidrMask ones 4) = minIP ip (cidrMask ones 4) ↔
      ipNum (minIP net (cidrMask ones 4)) = ipNum (minIP ip (cidrMask ones 4)) :=
    ⟨fun h => by rw [h], fun h => ipNum_inj _ _ (minIP_bytes _ _ hn) (minIP_bytes _ _ hi) hlen h⟩
  rw [hinj, e1, e2, e3]
  have hp : 0 < 2^(8 * 4 - ones) := by positivity
  generalize 2^(8 * 4 - ones) = P at *
  have h1 := Nat.div_add_mod (ipNum net) P
  have h2 := Nat.div_add_mod (ipNum ip) P
  have h3 := Nat.mod_lt (ipNum ip) hp
  rw [Nat.mul_comm (ipNum net / P), Nat.mul_comm (ipNum ip / P)]
  constructor
  · intro h; omega
  · rintro ⟨h4, h5⟩
    generalize ipNum net / P = x at *
    generalize ipNum ip / P = y at *
    have : x = y := by
      rcases Nat.lt_trichotomy x y with hlt | heq | hgt
      · have : P * (x + 1) ≤ P * y := Nat.mul_le_mul_left _ hlt
        rw [Nat.mul_add] at this
        omega
      · exact heq
      · have : P * (y + 1) ≤ P * x := Nat.mul_le_mul_left _ hgt
        rw [Nat.mul_add] at this
        omega
    rw [this]

theorem to4_v4 (n : Nat) : to4 (v4 n) = some (v4Bytes n) := by
  simp [to4, v4, v4Prefix, v4Bytes]

/-- C58: `contains_ip` for an IPv4 network and an IPv4 address in the forms delivered by the parser
(network: four bytes, address: 16 bytes). -/
theorem contains_ip_v4 (net : List Nat) (n ones : Nat) (hn : Bytes net) (hl : net.length = 4) (h : n < 2^32) (ho : ones ≤ 32) :
    cidrContains net (cidrMask ones 4) (v4 n) = true ↔
      ipNum (minIP net (cidrMask ones 4)) ≤ n ∧ n ≤ ipNum (maxIP net (cidrMask ones 4)) := by
  have h1 := contains_iff_between net (v4Bytes n) ones hn (v4Bytes_bytes n) hl rfl ho
  rw [ipNum_v4Bytes n h] at h1
  rw [← h1]
  have h4 : (cidrMask ones 4).length = 4 := cidrMask_length _ _
  have h5 : (v4Bytes n).length = 4 := rfl
  have h6 : to4 (v4Bytes n) = some (v4Bytes n) := rfl
  unfold cidrContains
  rw [to4_v4, h6]

/-- non-triviality: 10.1.0.0/15 contains 10.0.255.255? no; 10.0.0.0/15 contains it -/
example : cidrContains [10, 0, 0, 0] (cidrMask 15 4) (v4 (10 * 256^3 + 256^2 + 255)) = true ∧
    cidrContains [10, 2, 0, 0] (cidrMask 15 4) (v4 (10 * 256^3 + 256^2 + 255)) = false ∧
    maxIP [10, 0, 0, 0] (cidrMask 15 4) = [10, 1, 255, 255] := by decide

end Spiff
