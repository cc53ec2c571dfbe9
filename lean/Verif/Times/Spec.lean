import Verif.Times.Model

/-!
What times and durations should come to.
-/

namespace Kno.Times

/-- The argument denotes the moment `t`: it is a timestamp for it, a string that can
be read as it, a number of seconds from now if below a year and since 1970 if not,
or nothing at all, which is now. -/
def Denotes (now : Rat) (a : Arg) (t : Rat) : Prop :=
  a = .stamp t ∨ a = .str (some t) ∨
    (∃ n : Int, a = .int n ∧ n < 31536000 ∧ t = now + n) ∨
    (∃ n : Int, a = .int n ∧ 31536000 ≤ n ∧ t = n) ∨
    (a = .void ∧ t = now)

/-- The number is from 1970 on, or the argument is not a string. -/
def Readable (a : Arg) : Prop := ∀ t, a = .str (some t) → 0 ≤ t

/-- How many seconds a unit has: years have 365 days and months 30. -/
def seconds : Unit' → Nat
  | .year => 31536000
  | .month => 2592000
  | .week => 604800
  | .day => 86400
  | .hour => 3600
  | .minute => 60
  | .second => 1

example : seconds .year = 365 * seconds .day ∧ seconds .month = 30 * seconds .day ∧
    seconds .week = 7 * seconds .day ∧ seconds .day = 24 * seconds .hour ∧
    seconds .hour = 60 * seconds .minute := by decide

/-- The seconds of a listed duration. -/
def total (l : List (Unit' × Nat)) : Nat := (l.map fun x => x.2 * seconds x.1).sum

/-- A fraction of a second that a slot counts in, in nanoseconds. -/
def Sub.nanos : Sub → Nat
  | .nanoseconds | .nanosecond => 1
  | .microseconds | .microsecond => 1000
  | .milliseconds | .millisecond => 1000000

/-- The date part in a timestamp that a slot is about; months count from 1. -/
def part (xt : XTime) : Slot → Int
  | .year => xt.year
  | .month => xt.mon + 1
  | .date => xt.mday
  | .hours => xt.hour
  | .minutes => xt.min
  | .seconds => xt.sec

/-- The values which a part of a date can have in a calendar. -/
def Possible : Slot → Int → Prop
  | .year, _ => True
  | .month, v => 1 ≤ v ∧ v ≤ 12
  | .date, v => 1 ≤ v ∧ v ≤ 31
  | .hours, v => 0 ≤ v ∧ v ≤ 23
  | .minutes, v => 0 ≤ v ∧ v ≤ 59
  | .seconds, v => 0 ≤ v ∧ v ≤ 59

end Kno.Times
