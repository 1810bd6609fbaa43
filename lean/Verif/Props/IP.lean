import Verif.Model.IP
import Verif.Spec.IP
import Mathlib.Data.Int.ModEq
/-
C26: IP address arithmetic.
-/
namespace Spiff
open Spec

/-- little endian number -/
def numRev : List Nat → Nat
  | [] => 0
  | b :: r => b + 256 * numRev r

theorem ipNum_concat (l : List Nat) (b : Nat) : ipNum (l ++ [b]) = 256 * ipNum l + b := by
  simp [ipNum]

theorem numRev_eq (l : List Nat) : numRev l = ipNum l.reverse := by
  induction l with
  | nil => rfl
  | cons b r ih => rw [numRev, List.reverse_cons, ipNum_concat, ih]; omega

theorem numRev_lt (l : List Nat) (h : Bytes l) : numRev l < 256^l.length := by
  induction l with
  | nil => simp [numRev]
  | cons b r ih =>
    have h1 := ih (fun x hx => h x (by simp [hx]))
    have h2 := h b (by simp)
    rw [numRev, List.length_cons, Nat.pow_succ]
    omega

theorem ipNum_lt (l : List Nat) (h : Bytes l) : ipNum l < 256^l.length := by
  have := numRev_lt l.reverse (fun x hx => h x (by simpa using hx))
  rw [numRev_eq] at this
  simpa using this

theorem numRev_inj : ∀ (a b : List Nat), Bytes a → Bytes b → a.length = b.length → numRev a = numRev b → a = b
  | [], [], _, _, _, _ => rfl
  | [], _ :: _, _, _, h, _ => by simp at h
  | _ :: _, [], _, _, h, _ => by simp at h
  | x :: r, y :: s, ha, hb, hl, h => by
    have h1 := ha x (by simp)
    have h2 := hb y (by simp)
    simp only [numRev] at h
    have hxy : x = y := by omega
    have hrs : numRev r = numRev s := by omega
    rw [hxy, numRev_inj r s (fun z hz => ha z (by simp [hz])) (fun z hz => hb z (by simp [hz])) (by simpa using hl) hrs]

/-- Addresses of the same length with the same number are equal. -/
theorem ipNum_inj (a b : List Nat) (ha : Bytes a) (hb : Bytes b) (hl : a.length = b.length) (h : ipNum a = ipNum b) :
    a = b := by
  have := numRev_inj a.reverse b.reverse (fun x hx => ha x (by simpa using hx)) (fun x hx => hb x (by simpa using hx))
    (by simpa using hl) (by rw [numRev_eq, numRev_eq]; simpa using h)
  exact List.reverse_inj.1 this

/-- the carry computed by the code -/
def ipCarry (tmp : Int) : Int := (if tmp < 0 then wrap64 (tmp - 256) else tmp).tdiv 256

theorem ipAddRev_cons (b : Nat) (r : List Nat) (k : Int) :
    ipAddRev (b :: r) k = ((wrap64 (k + b)) % 256).toNat ::
      (if ipCarry (wrap64 (k + b)) = 0 then r else ipAddRev r (ipCarry (wrap64 (k + b)))) := by
  rw [ipAddRev]
  rw [show (if wrap64 (k + (b : Int)) < 0 then wrap64 (wrap64 (k + (b : Int)) - 256) else wrap64 (k + (b : Int))).tdiv 256
    = ipCarry (wrap64 (k + b)) from rfl]
  by_cases h : ipCarry (wrap64 (k + b)) = 0 <;> simp [h]

theorem ipAddRev_length (l : List Nat) (k : Int) : (ipAddRev l k).length = l.length := by
  induction l generalizing k with
  | nil => rfl
  | cons b r ih =>
    rw [ipAddRev_cons]
    split <;> simp [ih]

theorem ipAddRev_bytes (l : List Nat) (k : Int) (h : Bytes l) : Bytes (ipAddRev l k) := by
  induction l generalizing k with
  | nil => simpa [ipAddRev] using h
  | cons b r ih =>
    have hr : Bytes r := fun x hx => h x (by simp [hx])
    rw [ipAddRev_cons]
    intro x hx
    rcases List.mem_cons.1 hx with rfl | hx
    · omega
    · split at hx
      · exact hr x hx
      · exact ih _ hr x hx

theorem ipCarry_zero {t : Int} (h0 : 0 ≤ t) (h1 : t < 256) : ipCarry t = 0 := by
  unfold ipCarry
  rw [if_neg (by omega), Int.tdiv_eq_ediv_of_nonneg h0]
  omega

theorem ipAddRev_zero (l : List Nat) (h : Bytes l) : ipAddRev l 0 = l := by
  cases l with
  | nil => rfl
  | cons b r =>
    have hb : b < 256 := h b (by simp)
    rw [ipAddRev_cons]
    have hw : wrap64 (0 + (b : Int)) = b := by
      rw [wrap64_of_in ⟨by omega, by omega⟩]; omega
    rw [hw, ipCarry_zero (by omega) (by omega), if_pos rfl]
    have : ((b : Int) % 256).toNat = b := by omega
    rw [this]

theorem ipAddRev_cons' (b : Nat) (r : List Nat) (k : Int) (h : Bytes r) :
    ipAddRev (b :: r) k = ((wrap64 (k + b)) % 256).toNat :: ipAddRev r (ipCarry (wrap64 (k + b))) := by
  rw [ipAddRev_cons]
  split
  · next h0 => rw [h0, ipAddRev_zero r h]
  · rfl

/-- all carries are the rounded down quotients (the carry out of the last byte is irrelevant) -/
def GoodCarry : List Nat → Int → Prop
  | [], _ => True
  | b :: r, k => InInt64 (k + b) ∧ (r = [] ∨ (ipCarry (k + b) = (k + b) / 256 ∧ GoodCarry r (ipCarry (k + b))))

theorem ipAddRev_good (l : List Nat) (k : Int) (h : Bytes l) (hg : GoodCarry l k) :
    (numRev (ipAddRev l k) : Int) ≡ numRev l + k [ZMOD (256 : Int)^l.length] := by
  induction l generalizing k with
  | nil => simp [Int.ModEq, Int.emod_one]
  | cons b r ih =>
    have hr : Bytes r := fun x hx => h x (by simp [hx])
    obtain ⟨h1, h2⟩ := hg
    rw [ipAddRev_cons' b r k hr, wrap64_of_in h1, List.length_cons, pow_succ]
    simp only [numRev]
    push_cast
    rw [Int.toNat_of_nonneg (by omega)]
    rcases h2 with rfl | ⟨h2, h3⟩
    · simp only [numRev, ipAddRev, List.length_nil, pow_zero, one_mul]
      simp only [Int.ModEq]
      omega
    · have h4 := ih _ hr h3
      have h5 : 256 * (numRev (ipAddRev r (ipCarry (k + b))) : Int) ≡ 256 * (numRev r + ipCarry (k + b))
          [ZMOD 256 * (256 : Int)^r.length] := Int.ModEq.mul_left' h4
      rw [mul_comm (256 ^ r.length : Int) 256]
      have h6 := Int.ModEq.add_left ((k + b) % 256) h5
      refine h6.trans ?_
      rw [h2]
      have : (k + (b : Int)) % 256 + 256 * (numRev r + (k + b) / 256) = b + 256 * numRev r + k := by omega
      rw [this]

theorem ipCarry_nonneg {t : Int} (h0 : 0 ≤ t) : ipCarry t = t / 256 := by
  unfold ipCarry
  rw [if_neg (by omega), Int.tdiv_eq_ediv_of_nonneg h0]

theorem tdiv256_neg {t : Int} (h : t < 0) : t.tdiv 256 = -((-t) / 256) := by
  have : t.tdiv 256 = -((-t).tdiv 256) := by rw [Int.neg_tdiv]; omega
  rw [this, Int.tdiv_eq_ediv_of_nonneg (by omega)]

theorem ipCarry_neg {t : Int} (h0 : t < 0) (h : -(2^63) + 256 ≤ t) :
    ipCarry t = if t % 256 = 0 then t / 256 - 1 else t / 256 := by
  unfold ipCarry
  rw [if_pos h0, wrap64_of_in ⟨by omega, by omega⟩, tdiv256_neg (by omega)]
  split <;> omega

theorem goodCarry_nonneg (l : List Nat) (k : Int) (h : Bytes l) (h0 : 0 ≤ k) (hk : k + 255 < 2^63) : GoodCarry l k := by
  induction l generalizing k with
  | nil => trivial
  | cons b r ih =>
    have hb : b < 256 := h b (by simp)
    refine ⟨⟨by omega, by omega⟩, Or.inr ⟨ipCarry_nonneg (by omega), ?_⟩⟩
    rw [ipCarry_nonneg (by omega)]
    exact ih _ (fun x hx => h x (by simp [hx])) (by omega) (by omega)

theorem goodCarry_small (l : List Nat) (k : Int) (h : Bytes l) (h0 : -256 < k) (hk : k ≤ 0) : GoodCarry l k := by
  induction l generalizing k with
  | nil => trivial
  | cons b r ih =>
    have hb : b < 256 := h b (by simp)
    have hc : ipCarry (k + b) = (k + b) / 256 := by
      by_cases hn : k + (b : Int) < 0
      · rw [ipCarry_neg hn (by omega), if_neg (by omega)]
      · exact ipCarry_nonneg (by omega)
    refine ⟨⟨by omega, by omega⟩, Or.inr ⟨hc, ?_⟩⟩
    rw [hc]
    exact ih _ (fun x hx => h x (by simp [hx])) (by omega) (by omega)

theorem goodCarry_nonzero (l : List Nat) (k : Int) (h : Bytes l) (h0 : -(2^63) + 256 ≤ k) (hk : k + 255 < 2^63)
    (hz : 0 ∉ (ipAddRev l k).dropLast) : GoodCarry l k := by
  induction l generalizing k with
  | nil => trivial
  | cons b r ih =>
    have hb : b < 256 := h b (by simp)
    have hr : Bytes r := fun x hx => h x (by simp [hx])
    have hin : InInt64 (k + b) := ⟨by omega, by omega⟩
    refine ⟨hin, ?_⟩
    by_cases hrn : r = []
    · exact Or.inl hrn
    · refine Or.inr ?_
      rw [ipAddRev_cons' b r k hr, wrap64_of_in hin] at hz
      have hne : ipAddRev r (ipCarry (k + b)) ≠ [] := by
        intro hh
        have := ipAddRev_length r (ipCarry (k + b))
        rw [hh] at this
        exact hrn (List.length_eq_zero_iff.1 this.symm)
      rw [List.dropLast_cons_of_ne_nil hne] at hz
      simp only [List.mem_cons, not_or] at hz
      have hc : ipCarry (k + b) = (k + b) / 256 := by
        by_cases hn : k + (b : Int) < 0
        · rw [ipCarry_neg hn (by omega), if_neg (by omega)]
        · exact ipCarry_nonneg (by omega)
      refine ⟨hc, ?_⟩
      refine ih _ hr ?_ ?_ hz.2
      · rw [hc]; omega
      · rw [hc]; omega

theorem ipAdd_of_good (ip : List Nat) (k : Int) (h : Bytes ip) (hg : GoodCarry ip.reverse k) :
    (ipNum (ipAdd ip k) : Int) = (ipNum ip + k) % (256 : Int)^ip.length := by
  have h1 := ipAddRev_good ip.reverse k (fun x hx => h x (by simpa using hx)) hg
  rw [numRev_eq, numRev_eq, List.reverse_reverse, List.length_reverse] at h1
  have h2 : ipAdd ip k = (ipAddRev ip.reverse k).reverse := rfl
  rw [← h2] at h1
  rw [← h1]
  have hb : Bytes (ipAdd ip k) := by
    intro x hx
    rw [h2] at hx
    exact ipAddRev_bytes ip.reverse k (fun x hx => h x (by simpa using hx)) x (by simpa using hx)
  have hl : (ipAdd ip k).length = ip.length := by rw [h2]; simp [ipAddRev_length]
  have := ipNum_lt _ hb
  rw [hl] at this
  rw [Int.emod_eq_of_lt (by omega) (by exact_mod_cast this)]

theorem ipAdd_length (ip : List Nat) (k : Int) : (ipAdd ip k).length = ip.length := by
  simp [ipAdd, ipAddRev_length]

theorem ipAdd_bytes (ip : List Nat) (k : Int) (h : Bytes ip) : Bytes (ipAdd ip k) := by
  intro x hx
  exact ipAddRev_bytes ip.reverse k (fun x hx => h x (by simpa using hx)) x (by simpa [ipAdd] using hx)

/-- C26: adding a non-negative offset adds to the number of the address, modulo the size of the
address space. (The offset is at most 2^63-256, so that adding a byte does not overflow.) -/
theorem ip_add_nonneg (ip : List Nat) (k : Int) (h : Bytes ip) (h0 : 0 ≤ k) (hk : k + 255 < 2^63) :
    (ipNum (ipAdd ip k) : Int) = (ipNum ip + k) % (256 : Int)^ip.length :=
  ipAdd_of_good ip k h (goodCarry_nonneg _ k (fun x hx => h x (by simpa using hx)) h0 hk)

/-- C26: likewise for small negative offsets. -/
theorem ip_sub_small (ip : List Nat) (k : Int) (h : Bytes ip) (h0 : -256 < k) (hk : k ≤ 0) :
    (ipNum (ipAdd ip k) : Int) = (ipNum ip + k) % (256 : Int)^ip.length :=
  ipAdd_of_good ip k h (goodCarry_small _ k (fun x hx => h x (by simpa using hx)) h0 hk)

/-- C26, arbitrary negative offsets: the result is right if none of its bytes, except perhaps
the most significant one, is zero. What is missing for the full claim is false: see
`ip_sub_wrong`. -/
theorem ip_sub_partial (ip : List Nat) (k : Int) (h : Bytes ip) (h0 : -(2^63) + 256 ≤ k) (hk : k ≤ 0)
    (hz : 0 ∉ (ipAdd ip k).tail) :
    (ipNum (ipAdd ip k) : Int) = (ipNum ip + k) % (256 : Int)^ip.length := by
  refine ipAdd_of_good ip k h (goodCarry_nonzero _ k (fun x hx => h x (by simpa using hx)) h0 (by omega) ?_)
  intro hh
  apply hz
  rw [ipAdd, List.tail_reverse]
  simpa using hh

/-- C26, defect: 10.0.1.0 - 256 is computed as 9.255.255.0 instead of 10.0.0.0: the carry
of a negative multiple of 256 is too small by one. -/
theorem ip_sub_wrong : ipAdd (v4 (10 * 256^3 + 256)) (-256) = v4 (9 * 256^3 + 255 * 256^2 + 255 * 256) ∧
    ipAdd (v4 (10 * 256^3 + 256)) (-256) ≠ v4 (10 * 256^3 + 256 - 256) := by decide

/-! ### IPv4 -/

theorem v4Bytes_bytes (n : Nat) : Bytes (v4Bytes n) := by
  intro x hx
  simp only [v4Bytes, List.mem_cons, List.not_mem_nil, or_false] at hx
  omega

theorem ipNum_v4Bytes (n : Nat) (h : n < 2^32) : ipNum (v4Bytes n) = n := by
  simp only [ipNum, v4Bytes, List.foldl_cons, List.foldl_nil]
  omega

theorem v4_bytes (n : Nat) : Bytes (v4 n) := by
  intro x hx
  simp only [v4, List.mem_append] at hx
  rcases hx with hx | hx
  · simp at hx; omega
  · exact v4Bytes_bytes n x hx

theorem ipNum_v4 (n : Nat) (h : n < 2^32) : ipNum (v4 n) = 0xffff * 2^32 + n := by
  simp only [v4, ipNum, v4Bytes, List.foldl_cons, List.foldl_nil, List.cons_append, List.nil_append]
  omega

theorem v4_length (n : Nat) : (v4 n).length = 16 := rfl

/-- C26: for an IPv4 address (which is kept in its 16 byte form) adding an offset that stays within the
IPv4 address space yields the IPv4 address with the number `n + k`. -/
theorem ip4_add (n k : Nat) (h : n + k < 2^32) : ipAdd (v4 n) k = v4 (n + k) := by
  apply ipNum_inj _ _ (ipAdd_bytes _ _ (v4_bytes n)) (v4_bytes _) (by rw [ipAdd_length]; rfl)
  have := ip_add_nonneg (v4 n) k (v4_bytes n) (by omega) (by omega)
  rw [ipNum_v4 n (by omega), v4_length] at this
  rw [ipNum_v4 (n + k) h]
  have h2 : ((256 : Int)^16) = 340282366920938463463374607431768211456 := by decide
  rw [h2] at this
  omega

/-- C26: 255.255.255.255 + 1 leaves the IPv4 space: the result is the IPv6 address `::1:0:0:0`. -/
theorem ip4_add_overflow : ipAdd (v4 (2^32 - 1)) 1 = [0, 0, 0, 0, 0, 0, 0, 0, 0, 1, 0, 0, 0, 0, 0, 0] := by decide

/-- C26: subtraction of less than 256 within the IPv4 space -/
theorem ip4_sub_small (n k : Nat) (h : n < 2^32) (hk : k ≤ n) (hs : k < 256) : ipAdd (v4 n) (-(k : Int)) = v4 (n - k) := by
  apply ipNum_inj _ _ (ipAdd_bytes _ _ (v4_bytes n)) (v4_bytes _) (by rw [ipAdd_length]; rfl)
  have := ip_sub_small (v4 n) (-(k : Int)) (v4_bytes n) (by omega) (by omega)
  rw [ipNum_v4 n (by omega), v4_length] at this
  rw [ipNum_v4 (n - k) (by omega)]
  have h2 : ((256 : Int)^16) = 340282366920938463463374607431768211456 := by decide
  rw [h2] at this
  omega

/-! ### difference -/

theorem wrap64_step (x y d : Int) (h : d = wrap64 x) : wrap64 (wrap64 (d * 256) + y) = wrap64 (x * 256 + y) := by
  subst h
  unfold wrap64
  omega

theorem diffIP_fold (a b : List Nat) (h : a.length = b.length) (na nb : Nat) (d : Int) (hd : d = wrap64 (na - nb)) :
    (a.zip b).foldl (fun d x => wrap64 (wrap64 (d * 256) + ((x.1 : Int) - x.2))) d =
      wrap64 ((a.foldl (fun a b => 256 * a + b) na : Nat) - (b.foldl (fun a b => 256 * a + b) nb : Nat)) := by
  induction a generalizing b na nb d with
  | nil =>
    cases b with
    | nil => simpa using hd
    | cons y s => simp at h
  | cons x r ih =>
    cases b with
    | nil => simp at h
    | cons y s =>
      simp only [List.zip_cons_cons, List.foldl_cons]
      apply ih s (by simpa using h)
      rw [wrap64_step (na - nb) _ d hd]
      congr 1
      push_cast
      omega

/-- C26: the difference of two addresses is the difference of their numbers (as 64 bit integer). -/
theorem ip_diff (a b : List Nat) (h : a.length = b.length) : diffIP a b = wrap64 (ipNum a - ipNum b) :=
  diffIP_fold a b h 0 0 0 (by decide)

/-- C26: for IPv4 addresses the difference is exact. -/
theorem ip4_diff (n m : Nat) (hn : n < 2^32) (hm : m < 2^32) : diffIP (v4 n) (v4 m) = (n : Int) - m := by
  rw [ip_diff (v4 n) (v4 m) rfl, ipNum_v4 n hn, ipNum_v4 m hm, wrap64_of_in]
  · push_cast; omega
  · constructor <;> (push_cast; omega)

/-- C26: `a + (b - a) = b` for IPv4 addresses `a ≤ b`. -/
theorem ip4_add_diff (n m : Nat) (hm : m < 2^32) (h : n ≤ m) : ipAdd (v4 n) (diffIP (v4 m) (v4 n)) = v4 m := by
  rw [ip4_diff m n hm (by omega), show (m : Int) - n = ((m - n : Nat) : Int) by omega, ip4_add n (m - n) (by omega),
    show n + (m - n) = m by omega]

/-- C26: the law fails for `b < a`: a = 10.0.1.0, b = 10.0.0.0. -/
theorem ip4_add_diff_wrong : ipAdd (v4 (10 * 256^3 + 256)) (diffIP (v4 (10 * 256^3)) (v4 (10 * 256^3 + 256))) ≠ v4 (10 * 256^3) := by
  rw [ip4_diff _ _ (by decide) (by decide)]
  exact ip_sub_wrong.2

/-! ### increment -/

theorem ipIncRev_eq (l : List Nat) (h : Bytes l) : ipIncRev l = ipAddRev l 1 := by
  induction l with
  | nil => rfl
  | cons b r ih =>
    have hb : b < 256 := h b (by simp)
    have hr : Bytes r := fun x hx => h x (by simp [hx])
    rw [ipAddRev_cons, ipIncRev, wrap64_of_in (by constructor <;> omega), ipCarry_nonneg (by omega)]
    by_cases h255 : b = 255
    · subst h255
      simp only [ih hr]
      rfl
    · have h1 : (b + 1) % 256 > 0 := by omega
      have h2 : (1 + (b : Int)) / 256 = 0 := by omega
      have h3 : ((1 + (b : Int)) % 256).toNat = (b + 1) % 256 := by omega
      rw [if_pos h1, if_pos h2, h3]

/-- The increment is the addition of one. -/
theorem ip_inc (ip : List Nat) (h : Bytes ip) : ipInc ip = ipAdd ip 1 := by
  unfold ipInc ipAdd
  rw [ipIncRev_eq _ (fun x hx => h x (by simpa using hx))]

end Spiff
