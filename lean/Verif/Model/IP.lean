import Verif.Model.Int64
/-
IP addresses: dynaml/addition.go:66-79 (`IPAdd`), dynaml/ip.go, and the functions of
Go's package net they use (`IP.Mask`, `IP.To4`, `IPMask.Size`, `CIDRMask`, `IPNet.Contains`).
An address is a list of bytes (4 or 16), most significant first. `net.ParseIP` and
`net.ParseCIDR` deliver 16 byte addresses, IPv4 ones with the prefix `::ffff:0:0/96`.
-/
namespace Spiff

/-- dynaml/addition.go:66-79 `IPAdd` from the least significant byte on (the argument is the
reversed address). `byte(tmp)` is the low byte, `/` truncates towards zero; `tmp` is an int64. -/
def ipAddRev : List Nat → Int → List Nat
  | [], _ => []
  | b :: r, offset =>
    let tmp := wrap64 (offset + b)
    let b' := (tmp % 256).toNat
    let tmp := if tmp < 0 then wrap64 (tmp - 256) else tmp
    let offset := tmp.tdiv 256
    if offset = 0 then b' :: r else b' :: ipAddRev r offset

def ipAdd (ip : List Nat) (offset : Int) : List Nat := (ipAddRev ip.reverse offset).reverse

/-- dynaml/static_ips.go:214-221 `inc` (on the reversed address) -/
def ipIncRev : List Nat → List Nat
  | [] => []
  | b :: r => let b' := (b + 1) % 256; if b' > 0 then b' :: r else b' :: ipIncRev r

def ipInc (ip : List Nat) : List Nat := (ipIncRev ip.reverse).reverse

/-- dynaml/ip.go:110-118 `DiffIP`; Go panics if `b` is shorter, all callers pass addresses of the same length. -/
def diffIP (a b : List Nat) : Int :=
  (a.zip b).foldl (fun d x => wrap64 (wrap64 (d * 256) + ((x.1 : Int) - x.2))) 0

/-- the prefix of an IPv4 address in 16 byte form -/
def v4Prefix : List Nat := [0, 0, 0, 0, 0, 0, 0, 0, 0, 0, 255, 255]

/-- `net.IP.To4` -/
def to4 (ip : List Nat) : Option (List Nat) :=
  if ip.length = 4 then some ip
  else if ip.length = 16 ∧ ip.take 12 = v4Prefix then some (ip.drop 12) else none

/-- bytewise operation -/
def bytesOp (f : Nat → Nat → Nat) (a b : List Nat) : List Nat := (a.zip b).map (fun x => f x.1 x.2)

/-- `net.IP.Mask` (`none` is Go's nil) -/
def ipMask (ip mask : List Nat) : Option (List Nat) :=
  let mask := if mask.length = 16 ∧ ip.length = 4 ∧ mask.take 12 = List.replicate 12 255 then mask.drop 12 else mask
  let ip := if mask.length = 4 ∧ ip.length = 16 ∧ ip.take 12 = v4Prefix then ip.drop 12 else ip
  if ip.length = mask.length then some (bytesOp (· &&& ·) ip mask) else none

/-- one byte of a mask with `n` leading ones -/
def maskByte (n : Nat) : Nat := if n ≥ 8 then 255 else 256 - 2^(8 - n)

/-- `net.CIDRMask(ones, 8*len)` -/
def cidrMask (ones : Nat) : Nat → List Nat
  | 0 => []
  | len + 1 => maskByte ones :: cidrMask (ones - 8) len

/-- dynaml/ip.go:94-108 `MaxIP` for network address and mask of the same length (as delivered by
`net.ParseCIDR`). -/
def maxIP (ip mask : List Nat) : List Nat := bytesOp (fun v m => v ||| (255 - m)) (bytesOp (· &&& ·) ip mask) mask

/-- dynaml/ip.go:56-60 `min_ip` -/
def minIP (ip mask : List Nat) : List Nat := bytesOp (· &&& ·) ip mask

/-- dynaml/ip.go:68-73, ipset.go:98-101: `int64(1 << (32 - uint32(ones)))`: with more than 32 ones the
shift count is huge (unsigned), the result 0. -/
def numIP (ones : Nat) : Int := if ones ≤ 32 then 2^(32 - ones) else 0

/-- `net.IPNet.Contains` for a network address and mask of equal length -/
def cidrContains (net mask ip : List Nat) : Bool :=
  let nn := match to4 net with | some n => n | none => net
  let x := match to4 ip with | some n => n | none => ip
  let mask := if mask.length = 16 ∧ nn.length = 4 then mask.drop 12 else mask
  decide (x.length = nn.length) && decide (bytesOp (· &&& ·) nn mask = bytesOp (· &&& ·) x mask)

/-! ### address ranges: dynaml/ipset.go -/

/-- dynaml/ipset.go:12-25 -/
inductive IPRange where
  | span (start stop : List Nat) (size : Option Int)
  | cidr (net : List Nat) (ones : Nat)
deriving Repr

/-- dynaml/ipset.go:80-86, 98-101 `GetSize` -/
def IPRange.size : IPRange → Int
  | .span a b none => wrap64 (diffIP b a + 1)
  | .span _ _ (some n) => n
  | .cidr _ ones => numIP ones

/-- dynaml/ipset.go:88-96, 103-108 `GetIP` -/
def IPRange.get (r : IPRange) (index : Int) : Option (List Nat) :=
  if index < 0 ∨ index ≥ r.size then none
  else match r with
    | .span a _ _ => some (ipAdd a index)
    | .cidr net _ => some (ipAdd net index)

/-- dynaml/ipset.go:178-195: the address with a given index; `none` = out of range.
The inner `GetIP` never fails (`Props/IP.lean`). -/
def pickIP : List IPRange → Int → Int → Option (Option (List Nat))
  | [], _, _ => none
  | r :: rest, offset, index =>
    if index < wrap64 (offset + r.size) then some (r.get (wrap64 (index - offset)))
    else pickIP rest (wrap64 (offset + r.size)) index

/-- dynaml/ipset.go:170-203: the result of `ipset` for given ranges, number of addresses and
optional indices. `none` = error. -/
def ipset (ranges : List IPRange) (num : Nat) (indices : Option (List Nat)) : Option (List (List Nat)) :=
  match indices with
  | none => (List.range num).mapM (fun i : Nat => (pickIP ranges 0 (i : Int)).bind id)
  | some ix => if ix.length < num then none else (ix.take num).mapM (fun i : Nat => (pickIP ranges 0 (i : Int)).bind id)

/-- dynaml/static_ips.go:196-212 `ipRange`; the model stops after `fuel` steps (the Go loop
runs around the whole 128 bit address space if `b` lies before `a`). -/
def ipRangeFrom (b : List Nat) : Nat → List Nat → List (List Nat)
  | 0, a => [a]
  | fuel + 1, a => if a = b then [a] else a :: ipRangeFrom b fuel (ipInc a)

/-- dynaml/static_ips.go:62-97 `generateStaticIPs` for a given pool: indices, instance count. `none` = error. A negative index
(only possible for a direct argument) panics in Go; indices are natural numbers here. -/
def staticIPs (pool : List (List Nat)) (indices : List Nat) (instances : Nat) : Option (List (List Nat)) :=
  if indices = [] then none
  else match indices.mapM (fun i => pool[i]?) with
    | none => none
    | some ips => if ips.length < instances then none else some (ips.take instances)

end Spiff
