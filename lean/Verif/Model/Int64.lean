/-
Go's 64 bit integers.
-/
namespace Spiff

/-- two's complement wrap around of Go's `int64` -/
def wrap64 (i : Int) : Int := (i + 2^63) % 2^64 - 2^63

/-- the integers representable as Go `int64` -/
def InInt64 (i : Int) : Prop := -(2^63) ≤ i ∧ i < 2^63

theorem wrap64_of_in {i : Int} (h : InInt64 i) : wrap64 i = i := by
  unfold wrap64 InInt64 at *
  omega

theorem wrap64_in (i : Int) : InInt64 (wrap64 i) := by
  unfold wrap64 InInt64
  omega

theorem wrap64_mod (i : Int) : (wrap64 i) % 2^64 = i % 2^64 := by
  unfold wrap64
  omega

theorem wrap64_unique {i j : Int} (hj : InInt64 j) (h : j % 2^64 = i % 2^64) : wrap64 i = j := by
  unfold wrap64 InInt64 at *
  omega

theorem wrap64_wrap64 (i : Int) : wrap64 (wrap64 i) = wrap64 i := wrap64_of_in (wrap64_in i)

theorem wrap64_congr {i j : Int} (h : i % 2^64 = j % 2^64) : wrap64 i = wrap64 j := by
  unfold wrap64
  omega

end Spiff
