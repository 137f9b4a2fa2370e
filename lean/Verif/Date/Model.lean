import Verif.Basic
/-!
# Calendar conversion (rt/time/DateTime.h, rt/time/DateTime.cpp)

Machine integers are `Int`s; `s32`/`s64` results outside their range are a fault (`none`: signed
overflow), `u32` results wrap.  A failed assertion (also inside `safeDemote`) is a fault.  C++'s signed
division truncates: `Int.tdiv`.
-/
namespace Verif.Date
open Verif

/-- A signed 32-bit result; overflow is undefined. -/
def s32 (x : Int) : Option Int := if -2 ^ 31 ≤ x ∧ x < 2 ^ 31 then some x else none

/-- A signed 64-bit result; overflow is undefined. -/
def s64 (x : Int) : Option Int := if -2 ^ 63 ≤ x ∧ x < 2 ^ 63 then some x else none

/-- An unsigned 32-bit result: wraps. -/
def u32i (x : Int) : Int := x % 2 ^ 32

/-- Conversion of an unsigned 32-bit value to `s32` (two's complement). -/
def toS32 (x : Int) : Int := if x < 2 ^ 31 then x else x - 2 ^ 32

/-- `safeDemote<u8>` (platform/ply-platform/Util.h:78-100). -/
def demoteU8 (x : Int) : Option Int := if 0 ≤ x ∧ x < 2 ^ 8 then some x else none

/-- `safeDemote<u32>` (platform/ply-platform/Util.h:78-100). -/
def demoteU32 (x : Int) : Option Int := if 0 ≤ x ∧ x < 2 ^ 32 then some x else none

/-- `safeDemote<u64>` of an `s64` (platform/ply-platform/Util.h:78-100). -/
def demoteU64 (x : Int) : Option Int := if 0 ≤ x ∧ x < 2 ^ 64 then some x else none

/-- `DateTime` (rt/time/DateTime.h:10-21), without the time zone members, which no function uses. -/
structure DateTime where
  year : Int
  month : Int
  day : Int
  weekday : Int
  hour : Int
  minute : Int
  second : Int
  microseconds : Int
deriving DecidableEq, Repr

/-- `floorDiv` (rt/time/DateTime.cpp:48-56) on `s64`. -/
def floorDiv (dividend divisor : Int) : Option Int :=
  if divisor > 0 then
    if dividend < 0 then some ((dividend + (divisor - 1)).tdiv divisor)
    else some (dividend.tdiv divisor)
  else none

/-- The members set by `setDateFromEpochDays`. -/
structure Date where
  year : Int
  month : Int
  day : Int
  weekday : Int
deriving DecidableEq, Repr

/-- `era` (rt/time/DateTime.cpp:61). -/
def eraOfDays (days : Int) : Int := (if days ≥ 0 then days else days - 146096).tdiv 146097

/-- `yoe` (rt/time/DateTime.cpp:63). -/
def yoeOfDoe (doe : Int) : Int := u32i (doe - doe / 1460 + doe / 36524 - doe / 146096) / 365

/-- `doy` (rt/time/DateTime.cpp:65). -/
def doyOf (doe yoe : Int) : Int := u32i (doe - (365 * yoe + yoe / 4 - yoe / 100))

/-- `mp` (rt/time/DateTime.cpp:66). -/
def mpOf (doy : Int) : Int := u32i (5 * doy + 2) / 153

/-- `d` (rt/time/DateTime.cpp:67). -/
def dOf (doy mp : Int) : Int := u32i (doy - (153 * mp + 2) / 5 + 1)

/-- `m` (rt/time/DateTime.cpp:68). -/
def mOf (mp : Int) : Int := u32i (mp + (if mp < 10 then 3 else -9))

/-- The expression of rt/time/DateTime.cpp:72. -/
def weekdayOf (days : Int) : Int := if days ≥ -4 then (days + 4).tmod 7 else (days + 5).tmod 7 + 6

/-- `setDateFromEpochDays` (rt/time/DateTime.cpp:58-73).  `days - era * 146097` and `era * 400` cannot
overflow and are not checked. -/
def setDateFromEpochDays (days0 : Int) : Option Date :=
  match s32 (days0 + 719468), (if days0 + 719468 ≥ 0 then some 0 else s32 (days0 + 719468 - 146096)) with
  | some days, some _ =>
    let era := eraOfDays days
    let doe := u32i (days - era * 146097)
    let yoe := yoeOfDoe doe
    let y := yoe + era * 400
    let doy := doyOf doe yoe
    let mp := mpOf doy
    let d := dOf doy mp
    let m := mOf mp
    match demoteU8 m, demoteU8 d, demoteU8 (weekdayOf days) with
    | some month, some day, some weekday =>
      some ⟨y + (if m ≤ 2 then 1 else 0), month, day, weekday⟩
    | _, _, _ => none
  | _, _ => none

/-- `era` (rt/time/DateTime.cpp:79). -/
def eraOfYear (y : Int) : Int := (if y ≥ 0 then y else y - 399).tdiv 400

/-- `doy` (rt/time/DateTime.cpp:81). -/
def doyOfDate (m d : Int) : Int :=
  u32i ((153 * (if m > 2 then m - 3 else m + 9) + 2).tdiv 5 + d - 1)

/-- `doe` (rt/time/DateTime.cpp:82). -/
def doeOf (yoe doy : Int) : Int := u32i (yoe * 365 + yoe / 4 - yoe / 100 + doy)

/-- `getEpochDaysFromDate` (rt/time/DateTime.cpp:76-84).  The last line mixes `s32` and `u32`: it is
computed modulo 2^32. -/
def getEpochDaysFromDate (year month day : Int) : Option Int :=
  match s32 (year - (if month ≤ 2 then 1 else 0)) with
  | none => none
  | some y =>
    match (if y ≥ 0 then some y else s32 (y - 399)) with
    | none => none
    | some _ =>
      let era := eraOfYear y
      let yoe := u32i (y - era * 400)
      let doe := doeOf yoe (doyOfDate month day)
      match s32 (era * 146097) with
      | none => none
      | some e => some (toS32 (u32i (e + doe - 719468)))

/-- `usPerDay` (rt/time/DateTime.cpp:87, 104). -/
def usPerDay : Int := 86400000000

/-- `fromEpochMicroseconds` (rt/time/DateTime.cpp:86-101). -/
def fromEpochMicroseconds (us : Int) : Option DateTime :=
  match floorDiv us usPerDay with
  | none => none
  | some q =>
    match s32 q with
    | none => none
    | some days =>
      match demoteU64 (us - days * usPerDay), setDateFromEpochDays days with
      | some usInDay, some date =>
        match demoteU32 (usInDay / 1000000) with
        | none => none
        | some secs =>
          let minutes := secs / 60
          let hours := minutes / 60
          match demoteU8 hours, demoteU8 (minutes - hours * 60), demoteU8 (secs - minutes * 60),
              demoteU32 (usInDay - secs * 1000000) with
          | some h, some mi, some s, some us =>
            some ⟨date.year, date.month, date.day, date.weekday, h, mi, s, us⟩
          | _, _, _, _ => none
      | _, _ => none

/-- `toEpochMicroseconds` (rt/time/DateTime.cpp:103-109). -/
def toEpochMicroseconds (t : DateTime) : Option Int :=
  match getEpochDaysFromDate t.year t.month t.day with
  | none => none
  | some days =>
    let minutes := t.hour * 60 + t.minute
    let seconds := minutes * 60 + t.second
    s64 (days * usPerDay + seconds * 1000000 + t.microseconds)

end Verif.Date
