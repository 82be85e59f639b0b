import Verif.Win.Time

/-!
# C58: Windows file times
-/

namespace Asap
namespace Spec

/-- The number of 100 nanosecond intervals since 1601-01-01 that a `FILETIME` stands for. -/
def intervals (ft : FileTime) : Int := 2 ^ 32 * (ft.high.toNat : Int) + ft.low.toNat

/-- Days from 1601-01-01 to 1970-01-01: 369 years, of which 89 are leap years. -/
def daysTo1970 : Int := 369 * 365 + 89

/-- The instant `t` ticks after 1970, in nanoseconds since 1601. -/
def nanosSince1601 (c : SysClock) (t : Int) : Int := t * c.nanos + daysTo1970 * 86400 * 1000000000

/-- The instant a `FILETIME` stands for, in nanoseconds since 1601. -/
def nanosOf (ft : FileTime) : Int := intervals ft * 100

/-- `t` is a value of `file_time_type`. -/
def IsTime (t : Int) : Prop := -2 ^ 63 ≤ t ∧ t < 2 ^ 63

instance (t : Int) : Decidable (IsTime t) := inferInstanceAs (Decidable (_ ∧ _))

end Spec
open Spec

theorem quad_toNat (ft : FileTime) : (ft.quad.toNat : Int) = intervals ft := by
  have hl := ft.low.isLt
  have hh := ft.high.isLt
  have h : ft.quad.toNat = ft.high.toNat * 2 ^ 32 + ft.low.toNat := by
    simp only [FileTime.quad, BitVec.toNat_append]
    rw [Nat.shiftLeft_eq, Nat.mul_comm, ← Nat.two_pow_add_eq_or_of_lt hl, Nat.mul_comm]
  rw [h]; simp only [intervals]; omega

/-- The seconds computed by the unsigned arithmetic, read as signed. -/
theorem from_seconds (ft : FileTime) :
    (ft.quad / 10000000#64 - 11644473600#64).toInt = intervals ft / 10000000 - 11644473600 := by
  have hq := quad_toNat ft
  have hlt := ft.quad.isLt
  have hd : (ft.quad / 10000000#64).toNat = ft.quad.toNat / 10000000 := by
    simp [BitVec.toNat_udiv]
  have hlt2 : ft.quad.toNat / 10000000 < 2 ^ 41 := by omega
  rw [BitVec.toInt_sub, BitVec.toInt_eq_toNat_of_lt (by rw [hd]; omega), hd,
    show (11644473600#64).toInt = 11644473600 by rfl, Int.bmod_eq_of_le (by omega) (by omega)]
  omega

theorem quad_split (u : BitVec 64) : FileTime.quad ⟨u.setWidth 32, (u >>> 32).setWidth 32⟩ = u := by
  apply BitVec.eq_of_toNat_eq
  have hu := u.isLt
  have h := quad_toNat ⟨u.setWidth 32, (u >>> 32).setWidth 32⟩
  have h1 : (u.setWidth 32).toNat = u.toNat % 2 ^ 32 := by simp
  have h2 : ((u >>> 32).setWidth 32).toNat = u.toNat / 2 ^ 32 % 2 ^ 32 := by
    simp [Nat.shiftRight_eq_div_pow]
  simp only [intervals, h1, h2] at h
  omega

/-- **C58**, reading. A `FILETIME` is read as the start of the second it lies in (never a different second, also
before 1970), whenever that fits in `file_time_type`; otherwise the conversion overflows. -/
theorem c58_from (c : SysClock) (ft : FileTime) :
    (∀ t, fromWindowsFileTime c ft = .ok t →
      IsTime t ∧ nanosSince1601 c t ≤ nanosOf ft ∧ nanosOf ft < nanosSince1601 c t + 1000000000 ∧
      nanosSince1601 c t % 1000000000 = 0) ∧
    ((∃ t, IsTime t ∧ nanosSince1601 c t = nanosOf ft / 1000000000 * 1000000000) ↔
      ∃ t, fromWindowsFileTime c ft = .ok t) := by
  have hs := from_seconds ft
  have hc : (c.ticks : Int) * c.nanos = 1000000000 := by
    rw [← Int.natCast_mul, c.second]; rfl
  have hdef : fromWindowsFileTime c ft = i64 ((intervals ft / 10000000 - 11644473600) * c.ticks) := by
    simp only [fromWindowsFileTime, hs]
  have key : nanosSince1601 c ((intervals ft / 10000000 - 11644473600) * c.ticks) =
      intervals ft / 10000000 * 1000000000 := by
    simp only [nanosSince1601, daysTo1970]
    rw [Int.mul_assoc, hc]; omega
  constructor
  · intro t ht
    rw [hdef, i64] at ht
    split at ht
    · rename_i hi
      cases ht
      refine ⟨hi, ?_, ?_, ?_⟩ <;> rw [key] <;> (try simp only [nanosOf]) <;> omega
    · cases ht
  · constructor
    · rintro ⟨t, ht, he⟩
      have hn : (0 : Int) < c.nanos := by
        rcases Nat.eq_zero_or_pos c.nanos with h | h
        · have := c.second; rw [h] at this; omega
        · omega
      have : t = (intervals ft / 10000000 - 11644473600) * c.ticks := by
        have h2 : nanosSince1601 c t = nanosSince1601 c ((intervals ft / 10000000 - 11644473600) * c.ticks) := by
          rw [key, he]; simp only [nanosOf]; omega
        simp only [nanosSince1601] at h2
        exact Int.eq_of_mul_eq_mul_right (by omega) (by omega : t * (c.nanos : Int) = _)
      refine ⟨t, ?_⟩
      rw [hdef, i64, ← this]; exact if_pos ht
    · rintro ⟨t, ht⟩
      rw [hdef, i64] at ht
      split at ht
      · rename_i hi
        exact ⟨_, hi, by rw [key]; simp only [nanosOf]; omega⟩
      · cases ht

/-- **C58**, writing. A time from 1970 on and before `2^63` nanoseconds later is written as the interval it lies
in, with no error. -/
theorem c58_to_partial (c : SysClock) (t : Int) (h0 : 0 ≤ t) (h1 : t * c.nanos < 2 ^ 63) :
    ∃ ft, toWindowsFileTime c t = .ok (ft, none) ∧
      nanosOf ft ≤ nanosSince1601 c t ∧ nanosSince1601 c t < nanosOf ft + 100 := by
  have hn : 0 ≤ t * c.nanos := Int.mul_nonneg h0 (by omega)
  generalize hx : t * (c.nanos : Int) = x at h1 hn
  have hd : x.tdiv 100 = x / 100 := Int.tdiv_eq_ediv_of_nonneg hn
  let u : BitVec 64 := BitVec.ofInt 64 (x / 100 + 116444736000000000)
  refine ⟨⟨u.setWidth 32, (u >>> 32).setWidth 32⟩, ?_, ?_⟩
  · have e1 : i64 x = .ok x := by rw [i64, if_pos (by constructor <;> omega)]
    have e2 : i64 (x / 100 + 116444736000000000) = .ok (x / 100 + 116444736000000000) := by
      rw [i64, if_pos (by constructor <;> omega)]
    simp only [toWindowsFileTime, if_neg (show ¬ t < 0 by omega), hx, e1, bind, Except.bind, hd, e2]
    rfl
  · have hu : (u.toNat : Int) = x / 100 + 116444736000000000 := by
      have : u.toNat = (x / 100 + 116444736000000000).toNat := by
        simp only [u, BitVec.toNat_ofInt]
        rw [Int.emod_eq_of_lt (by omega) (by omega)]
      rw [this]; omega
    have hq : intervals ⟨u.setWidth 32, (u >>> 32).setWidth 32⟩ = x / 100 + 116444736000000000 := by
      rw [← quad_toNat, quad_split, hu]
    simp only [nanosOf, hq, nanosSince1601, daysTo1970, hx]
    omega

/-- **C58**, round trip: writing and reading back loses exactly the part below a second, for the times that
`c58_to_partial` covers. -/
theorem c58_round_trip_partial (c : SysClock) (t : Int) (h0 : 0 ≤ t) (h1 : t * c.nanos < 2 ^ 63) :
    ∃ ft t', toWindowsFileTime c t = .ok (ft, none) ∧ fromWindowsFileTime c ft = .ok t' ∧
      t' * c.nanos = t * c.nanos / 1000000000 * 1000000000 := by
  obtain ⟨ft, hft, h2, h3⟩ := c58_to_partial c t h0 h1
  have hc : (c.ticks : Int) * c.nanos = 1000000000 := by
    rw [← Int.natCast_mul, c.second]; rfl
  have hn : (0 : Int) < c.nanos := by
    rcases Nat.eq_zero_or_pos c.nanos with h | h
    · have := c.second; rw [h] at this; omega
    · omega
  have hx0 : 0 ≤ t * c.nanos := Int.mul_nonneg h0 (by omega)
  -- the start of the second
  have hex : ∃ t', IsTime t' ∧ nanosSince1601 c t' = nanosOf ft / 1000000000 * 1000000000 := by
    refine ⟨t * c.nanos / 1000000000 * c.ticks, ?_, ?_⟩
    · have e : t * c.nanos / 1000000000 * c.ticks * c.nanos = t * c.nanos / 1000000000 * 1000000000 := by
        rw [Int.mul_assoc, hc]
      have hle : t * c.nanos / 1000000000 * c.ticks * c.nanos ≤ t * c.nanos := by rw [e]; omega
      have hle2 := Int.le_of_mul_le_mul_right hle hn
      have h4 : 0 ≤ t * c.nanos / 1000000000 * (c.ticks : Int) :=
        Int.mul_nonneg (by omega) (by omega)
      have h5 : t ≤ t * c.nanos := by
        have := Int.mul_le_mul_of_nonneg_left (show (1 : Int) ≤ c.nanos by omega) h0
        omega
      constructor <;> omega
    · simp only [nanosSince1601, daysTo1970] at h2 h3 ⊢
      rw [Int.mul_assoc, hc]
      simp only [nanosOf] at h2 h3 ⊢
      omega
  obtain ⟨t', ht'⟩ := (c58_from c ft).2.mp hex
  obtain ⟨_, h5, h6, h7⟩ := (c58_from c ft).1 t' ht'
  refine ⟨ft, t', hft, ht', ?_⟩
  simp only [nanosSince1601, daysTo1970, nanosOf] at h2 h3 h5 h6 h7
  generalize t * (c.nanos : Int) = x at *
  generalize t' * (c.nanos : Int) = y at *
  omega

/-- 2026-11-16 00:00:00.123456700 on Microsoft's clock. -/
example : 0 ≤ (17947872001234567 : Int) ∧ 17947872001234567 * (SysClock.msvc.nanos : Int) < 2 ^ 63 := by decide

/-- **C58** violated. A time before 1970 is rejected although it is after 1601, and although reading a
`FILETIME` gives such times; and on Microsoft's clock, whose `file_time_type` reaches beyond the year 31000, both
directions overflow: writing from the year 2262 on, reading from the year 30828 on. -/
theorem c58_violated :
    (∀ (c : SysClock) (t : Int), t < 0 → toWindowsFileTime c t = .ok (⟨0, 0⟩, some .EINVAL)) ∧
    (∃ ft t, fromWindowsFileTime .msvc ft = .ok t ∧ 0 < nanosSince1601 .msvc t ∧
      toWindowsFileTime .msvc t = .ok (⟨0, 0⟩, some .EINVAL)) ∧
    (∃ t, IsTime t ∧ t / 10000000 / 86400 < 107000 ∧ toWindowsFileTime .msvc t = .error .ub) ∧
    (∃ ft, fromWindowsFileTime .msvc ft = .error .ub) := by
  refine ⟨fun c t h => if_pos h, ⟨⟨0, 1⟩, -116444731710000000, ?_, ?_, ?_⟩,
    ⟨92233720368547759, ?_, ?_, ?_⟩, ⟨⟨-1, -1⟩, ?_⟩⟩
  all_goals decide

end Asap
