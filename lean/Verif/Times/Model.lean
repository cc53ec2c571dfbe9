/-
Times and durations: `src/prims/timeprims.c`.

Moments are rational numbers of seconds since the beginning of 1970; the
arithmetic of libu8 (`u8_xtime_plus`, `u8_xtime_diff`) is taken to be exact, and
`u8_now` gives the same moment during one call.  The calendar, that is how
libu8's `u8_mktime` makes a moment from a date, is a parameter.
-/

namespace Kno.Times

/-- What a primitive comes to: an answer, a lisp error, or behaviour that the C
language leaves undefined. -/
inductive Out (α : Type) where
  | ok (a : α)
  | err
  | undefined
deriving Repr, DecidableEq

/-- Arguments: timestamps; strings, with the moment libu8's parser reads in them;
fixnums; flonums; an argument that was not given; anything else. -/
inductive Arg where
  | stamp (t : Rat)
  | str (parsed : Option Rat)
  | int (n : Int)
  | flo (x : Rat)
  | void
  | other
deriving Repr, DecidableEq

/-- `get_timestamp`, `src/prims/timeprims.c:253-302`.  A parsed moment before 1970
looks like a failure of the parser; numbers below a year's seconds are relative
to now.  Simplified: big integers are left out. -/
def getTimestamp (now : Rat) : Arg → Option Rat
  | .stamp t => some t
  | .str none => none
  | .str (some t) => if t < 0 then none else some t
  | .int n => if n < 31536000 then some (now + n) else some n
  | .void => some now
  | .flo _ => none
  | .other => none

/-- `timestamp_greater`, `src/prims/timeprims.c:408-435`. -/
def timeGreater (now : Rat) (a b : Arg) : Out Bool :=
  match getTimestamp now a with
  | none => .err
  | some t1 =>
    match getTimestamp now b with
    | none => .err
    | some t2 => .ok (decide (t1 - t2 > 0))

/-- `timestamp_lesser`, `src/prims/timeprims.c:442-469`. -/
def timeLesser (now : Rat) (a b : Arg) : Out Bool :=
  match getTimestamp now a with
  | none => .err
  | some t1 =>
    match getTimestamp now b with
    | none => .err
    | some t2 => .ok (decide (t1 - t2 < 0))

/-- `timestamp_diff`, `src/prims/timeprims.c:358-383`; `elapsed` is what
`u8_elapsed_time` gives. -/
def difftime (now elapsed : Rat) (a b : Arg) : Out Rat :=
  match a, b with
  | .flo x, .void => .ok (elapsed - x)
  | .flo x, .flo y => .ok (x - y)
  | a, b =>
    match getTimestamp now a, getTimestamp now b with
    | some t1, some t2 => .ok (t1 - t2)
    | _, _ => .err

/-- `time_until`, `src/prims/timeprims.c:389-392`. -/
def timeUntil (now elapsed : Rat) (a : Arg) : Out Rat := difftime now elapsed a .void

/-- `time_since`, `src/prims/timeprims.c:398-401`. -/
def timeSince (now elapsed : Rat) (a : Arg) : Out Rat := difftime now elapsed .void a

/-- `kno_cmp_now`, `src/prims/timeprims.c:471-487`: on an error the number of
`KNO_ERROR`, the constant 15, is returned as an `int`
(`include/kno/ptr.h:746,763`). -/
def cmpNow (now : Rat) (a : Arg) (thresh : Rat) : Int :=
  match getTimestamp now a with
  | none => 61
  | some t =>
    if t - now > thresh then 1
    else if t - now < -thresh then -1
    else 0

/-- The conversion of a double to an `int`: digits after the point are cut. -/
def toInt (x : Rat) : Int := if x < 0 then - (-x).floor else x.floor

/-- The threshold as `futurep` and `pastp` read it, `src/prims/timeprims.c:496-498`.
Simplified: thresholds fit into an `int`. -/
def threshold (th : Option Rat) : Rat :=
  match th with
  | none => 0
  | some x => ((toInt x : Int) : Rat)

/-- `futurep`, `src/prims/timeprims.c:494-502`. -/
def futurep (now : Rat) (a : Arg) (th : Option Rat) : Bool :=
  decide (cmpNow now a (threshold th) > 0)

/-- `pastp`, `src/prims/timeprims.c:509-517`. -/
def pastp (now : Rat) (a : Arg) (th : Option Rat) : Bool :=
  decide (cmpNow now a (threshold th) < 0)

/-- The number in an argument, if it is one: `kno_todouble`.  Simplified: fractions
are left out. -/
def number : Arg → Option Rat
  | .int n => some n
  | .flo x => some x
  | _ => none

/-- `timestamp_plus_helper`, `src/prims/timeprims.c:304-331`.  A base that denotes
no time gives `NULL`, which is copied from. -/
def plusHelper (now : Rat) (a b : Arg) (neg : Bool) : Out Rat :=
  match b with
  | .void =>
    match number a with
    | some d => .ok (now + (if neg then -d else d))
    | none => .err
  | b =>
    match number b with
    | none => .err
    | some d =>
      match getTimestamp now a with
      | some t => .ok (t + (if neg then -d else d))
      | none => .undefined

/-- `timestamp_prim` for a flonum, `src/prims/timeprims.c:161-166`: seconds and
nanoseconds.  Converting a double which is not in the range of `unsigned int` is
undefined. -/
def timestampFlo (x : Rat) : Out (Int × Int) :=
  if 0 ≤ x.floor ∧ x.floor < 4294967296 then
    .ok (x.floor, ((x - x.floor) * 1000000000).floor)
  else .undefined

/-! ### Timestamps as tables -/

/-- `u8_timestamp_precision`, in order. -/
inductive Prec where
  | year | month | day | hour | minute | second | millisecond | microsecond | nanosecond
deriving Repr, DecidableEq

/-- The number of a precision, which `xtime_get` compares. -/
def Prec.rank : Prec → Nat
  | .year => 1 | .month => 2 | .day => 3 | .hour => 4 | .minute => 5 | .second => 6
  | .millisecond => 7 | .microsecond => 8 | .nanosecond => 9

/-- The parts of `struct U8_XTIME` that are a date and an offset. -/
structure XTime where
  tick : Int
  nsecs : Nat
  prec : Prec
  year : Int
  mon : Int
  mday : Int
  hour : Int
  min : Int
  sec : Int
  tzoff : Int
  dstoff : Int
deriving Repr, DecidableEq

/-- The slots that are parts of a date. -/
inductive Slot where
  | year | month | date | hours | minutes | seconds
deriving Repr, DecidableEq

/-- The first part of `xtime_set`, `src/prims/timeprims.c:981-1011`, for integers;
`none` is a type error. -/
def setField (xt : XTime) (slot : Slot) (v : Int) : Option XTime :=
  match slot with
  | .year =>
    if 0 ≤ v then
      some { xt with
        year := if v < 50 then v + 2000 else if v < 100 then v + 1900 else v }
    else none
  | .month => if 0 < v ∧ v < 13 then some { xt with mon := v - 1 } else none
  | .date => if 0 < v ∧ v < 32 then some { xt with mday := v } else none
  | .hours => if 0 ≤ v ∧ v < 32 then some { xt with hour := v } else none
  | .minutes => if 0 ≤ v ∧ v < 60 then some { xt with min := v } else none
  | .seconds => if 0 ≤ v ∧ v < 60 then some { xt with sec := v } else none

/-- What storing comes to: an error that says what is wrong, a failure without one,
or success. -/
inductive Stored where
  | typeError
  | failed
  | stored
deriving Repr, DecidableEq

/-- `xtime_set` for these slots, `src/prims/timeprims.c:981-1053`: the moment made
from the new date is kept in an `int`, and negative ones are failures.
Simplified: `u8_mktime` is given by `mk` and leaves the date as it is. -/
def xtimeSet (mk : XTime → Int) (xt : XTime) (slot : Slot) (v : Int) : XTime × Stored :=
  match setField xt slot v with
  | none => (xt, .typeError)
  | some xt' =>
    ({ xt' with tick := mk xt' },
     if Int.bmod (mk xt') 4294967296 < 0 then .failed else .stored)

/-- The parts of `xtime_get` for these slots, `src/prims/timeprims.c:597-603,686-692,843-870`;
`none` stands for a timestamp that is not precise enough. -/
def xtimeGet (xt : XTime) (slot : Slot) : Option Int :=
  match slot with
  | .year => if 1 ≤ xt.prec.rank then some xt.year else none
  | .month => if 2 ≤ xt.prec.rank then some (xt.mon % 256) else none
  | .date => if 3 ≤ xt.prec.rank then some (xt.mday % 256) else none
  | .hours => if 4 ≤ xt.prec.rank then some (xt.hour % 256) else none
  | .minutes => if 5 ≤ xt.prec.rank then some (xt.min % 256) else none
  | .seconds => if 6 ≤ xt.prec.rank then some (xt.sec % 256) else none

/-- The slots for parts of a second. -/
inductive Sub where
  | nanoseconds | nanosecond | microseconds | microsecond | milliseconds | millisecond
deriving Repr, DecidableEq

/-- `reduce` in `xtime_get`, `src/prims/timeprims.c:921-922`. -/
def reduceBy : Sub → Nat
  | .microseconds => 1000
  | _ => 1000000

/-- Parts of a second in `xtime_get`, `src/prims/timeprims.c:896-929`. -/
def subGet (xt : XTime) (s : Sub) : Option Nat :=
  if 6 ≤ xt.prec.rank then
    match s with
    | .nanoseconds | .nanosecond =>
      if 9 ≤ xt.prec.rank then some xt.nsecs else none
    | .microseconds | .microsecond =>
      if xt.prec.rank < 8 then none
      else some (xt.nsecs / reduceBy s +
        (if xt.nsecs % reduceBy s ≥ reduceBy s / 2 then 1 else 0))
    | .milliseconds | .millisecond =>
      if xt.prec.rank < 7 then none
      else some (xt.nsecs / reduceBy s +
        (if xt.nsecs % reduceBy s ≥ reduceBy s / 2 then 1 else 0))
  else none

/-- The seasons. -/
inductive Season where
  | winter | spring | summer | autumn
deriving Repr, DecidableEq

/-- `season` in `xtime_get`, `src/prims/timeprims.c:942-954`. -/
def seasons (mon : Int) : List Season :=
  (if mon + 1 ≥ 12 ∨ mon + 1 < 4 then [Season.winter] else []) ++
  (if mon + 1 ≥ 3 ∧ mon + 1 < 6 then [Season.spring] else []) ++
  (if mon + 1 > 5 ∧ mon + 1 < 10 then [Season.summer] else []) ++
  (if mon + 1 > 8 ∧ mon + 1 < 12 then [Season.autumn] else [])

/-- The times of day. -/
inductive DayTime where
  | nighttime | morning | afternoon | evening
deriving Repr, DecidableEq

/-- `time-of-day` in `xtime_get`, `src/prims/timeprims.c:959-971`. -/
def dayTimes (hr : Int) : List DayTime :=
  (if hr < 5 ∨ hr > 20 then [DayTime.nighttime] else []) ++
  (if hr ≥ 5 ∧ hr < 12 then [DayTime.morning] else []) ++
  (if hr ≥ 12 ∧ hr < 19 then [DayTime.afternoon] else []) ++
  (if hr > 16 ∧ hr < 22 then [DayTime.evening] else [])

/-- `tzvalueok` for fixnums, `src/prims/timeprims.c:557-565`. -/
def tzvalueok (v : Int) : Option Int :=
  if v < 172800 ∧ v > -172800 then
    if 0 ≤ v ∧ v < 48 then some (v * 3600)
    else if v ≤ 0 ∧ v ≥ -48 then some (v * 3600)
    else some v
  else none

/-- The slots for offsets. -/
inductive Off where
  | gmtoff | dstoff | tzoff
deriving Repr, DecidableEq

/-- Setting an offset, `src/prims/timeprims.c:1012-1034`.  Simplified: that
`u8_init_xtime` makes the date anew is left out. -/
def setOff (xt : XTime) (o : Off) (v : Int) : Option XTime :=
  match tzvalueok v with
  | none => none
  | some off =>
    match o with
    | .gmtoff => some { xt with tzoff := off - xt.dstoff }
    | .dstoff => some { xt with tzoff := xt.tzoff + xt.dstoff - off, dstoff := off }
    | .tzoff => some { xt with tzoff := off }

/-- Reading an offset, `src/prims/timeprims.c:871-876`. -/
def getOff (xt : XTime) : Off → Int
  | .gmtoff => xt.tzoff + xt.dstoff
  | .dstoff => xt.dstoff
  | .tzoff => xt.tzoff

/-! ### Durations -/

/-- The units of `secs->string`. -/
inductive Unit' where
  | year | month | week | day | hour | minute | second
deriving Repr, DecidableEq

/-- The numbers computed by `secs2string`, `src/prims/timeprims.c:1229-1240`, for a
whole number of seconds: each count with its unit, and what is left.
Simplified: the number of years fits into an `int`. -/
def breakdown (r : Nat) : List (Unit' × Nat) × Nat :=
  ([(.year, r / 31536000),
    (.month, r % 31536000 / 2592000),
    (.week, r % 31536000 % 2592000 / 604800),
    (.day, r % 31536000 % 2592000 % 604800 / 86400),
    (.hour, r % 31536000 % 2592000 % 604800 % 86400 / 3600),
    (.minute, r % 31536000 % 2592000 % 604800 % 86400 % 3600 / 60)],
   r % 31536000 % 2592000 % 604800 % 86400 % 3600 % 60)

/-- From which precision on nothing follows a unit, `src/prims/timeprims.c:1242-1304`;
years always go on. -/
def limit : Unit' → Option Int
  | .year => none
  | .month => some 25920000
  | .week => some 2678400
  | .day => some 86400
  | .hour => some 3600
  | .minute => some 60
  | .second => none

/-- Whether the precision stops the listing after this unit. -/
def stops (prec : Int) (u : Unit') : Bool :=
  match limit u with
  | none => false
  | some l => decide (prec ≥ l)

/-- The listing of `secs2string`, `src/prims/timeprims.c:1242-1328`: units whose count
is 0 are skipped, and do not end the listing; what is left are the seconds. -/
def listing (prec : Int) (rest : Nat) : List (Unit' × Nat) → List (Unit' × Nat)
  | [] => if rest = 0 then [] else [(.second, rest)]
  | (u, n) :: more =>
    if n > 0 then
      if stops prec u then [(u, n)] else (u, n) :: listing prec rest more
    else listing prec rest more

/-- `secs2string` for a fixnum, `src/prims/timeprims.c:1206-1330`: whether it says
"negative", and what it lists.  Zero is "0 seconds". -/
def secsString (n : Int) (prec : Int) : Bool × List (Unit' × Nat) :=
  if n = 0 then (false, [(.second, 0)])
  else (decide (n < 0), listing prec (breakdown n.natAbs).2 (breakdown n.natAbs).1)

/-- `secs2short` for a fixnum, `src/prims/timeprims.c:1336-1367`: whether it says
"negative", the days, hours, minutes and seconds. -/
def secsShort (n : Int) : Bool × Nat × Nat × Nat × Nat :=
  (decide (n < 0), n.natAbs / 86400, n.natAbs % 86400 / 3600,
   n.natAbs % 86400 % 3600 / 60, n.natAbs % 86400 % 3600 % 60)

end Kno.Times
