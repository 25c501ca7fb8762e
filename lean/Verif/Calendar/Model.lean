/-!
# Calendar and time-of-day conversions

Model of `Db/dbdata.c` lines 1810-1843 (API) and 2898-2932 (Ray Gardner's scalar date routines).

`unsigned` and `long` values are natural numbers / integers; the only unsigned wrap-around that can occur
for arguments the API lets through (`yr--` with `yr = 0`) is modelled explicitly.  The API returns `int`:
`toInt32` is the conversion.
-/
namespace WG

/-- Conversion of a `long` to `int` (two's complement wrap). -/
def toInt32 (x : Int) : Int := (x + 2147483648) % 4294967296 - 2147483648

/-- `isleap`, Db/dbdata.c lines 2898-2900. -/
def isleap (yr : Nat) : Bool := yr % 400 == 0 || (yr % 4 == 0 && yr % 100 != 0)

/-- `months_to_days`, Db/dbdata.c lines 2902-2904 (month ≥ 1, so the subtraction does not wrap). -/
def monthsToDays (month : Nat) : Nat := (month * 3057 - 3007) / 100

/-- `years_to_days`, Db/dbdata.c lines 2906-2908. -/
def yearsToDays (yr : Nat) : Nat := yr * 365 + yr / 4 - yr / 100 + yr / 400

/-- `ymd_to_scalar`, Db/dbdata.c lines 2910-2918; `yr--` on unsigned 0 gives 2^32-1. -/
def ymdToScalar (yr mo day : Nat) : Int :=
  let s : Int := day + monthsToDays mo
  let s := if mo > 2 then s - (if isleap yr then 1 else 2) else s
  let yr' := if yr = 0 then 4294967295 else yr - 1
  s + yearsToDays yr'

theorem yearsToDays_succ (n : Nat) : yearsToDays n + 365 ≤ yearsToDays (n+1) := by
  unfold yearsToDays; omega

/-- The `for` loop of `scalar_to_ymd`, Db/dbdata.c line 2923 (`n` does not wrap: `scalar` comes from an
`int`). -/
def yearLoop (scalar n : Nat) : Nat :=
  if yearsToDays n < scalar then yearLoop scalar (n+1) else n
termination_by scalar - yearsToDays n
decreasing_by have := yearsToDays_succ n; omega

/-- `scalar_to_ymd`, Db/dbdata.c lines 2920-2932, for `scalar ≥ 1` (the domain in which the unsigned
arithmetic does not wrap). -/
def scalarToYmd (scalar : Nat) : Nat × Nat × Nat :=
  let yr := yearLoop scalar ((scalar * 400) / 146097)
  let n := scalar - yearsToDays (yr - 1)
  let n := if n > 59 then
      (if isleap yr then (n + 2) - (if n + 2 > 62 then 1 else 2) else n + 2)
    else n
  let mo := (n * 100 + 3007) / 3057
  (yr, mo, n - monthsToDays mo)

/-- `wg_ymd_to_date`, Db/dbdata.c lines 1810-1813. -/
def ymdToDate (yr mo day : Int) : Int :=
  if yr < 0 ∨ mo < 1 ∨ mo > 12 ∨ day < 1 ∨ day > 31 then -1
  else toInt32 (ymdToScalar yr.toNat mo.toNat day.toNat)

/-- `wg_date_to_ymd`, Db/dbdata.c lines 1823-1830; `none` for dates before day 1, where the C code's
unsigned arithmetic wraps around (not modelled). -/
def dateToYmd (date : Int) : Option (Int × Int × Int) :=
  if date < 1 then none
  else let r := scalarToYmd date.toNat
    some (r.1, r.2.1, r.2.2)

/-- `wg_hms_to_time`, Db/dbdata.c lines 1816-1820. -/
def hmsToTime (hr min sec prt : Int) : Int :=
  if hr < 0 ∨ hr > 24 ∨ min < 0 ∨ min > 60 ∨ sec < 0 ∨ sec > 60 ∨ prt < 0 ∨ prt > 99 then -1
  else hr * (60*60*100) + min * (60*100) + sec * 100 + prt

/-- `wg_time_to_hms`, Db/dbdata.c lines 1833-1843; C division truncates. -/
def timeToHms (time : Int) : Int × Int × Int × Int :=
  let hr := time.tdiv (60*60*100)
  let t := time - hr * (60*60*100)
  let min := t.tdiv (60*100)
  let t := t - min * (60*100)
  let sec := t.tdiv 100
  (hr, min, sec, t - sec * 100)

end WG
