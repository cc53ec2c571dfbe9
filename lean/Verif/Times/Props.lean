import Verif.Times.Lemmas

namespace Kno.Times

/-- C298: for arguments that denote moments `time<?` and `time>?` say which is earlier;
exactly one of earlier, later and the same holds. -/
theorem compare_exact (now t1 t2 : Rat) (a b : Arg)
    (h1 : Denotes now a t1) (r1 : Readable a) (h2 : Denotes now b t2) (r2 : Readable b) :
    timeLesser now a b = .ok (decide (t1 < t2)) ∧
    timeGreater now a b = .ok (decide (t2 < t1)) := by
  have e1 := getTimestamp_denotes h1 r1
  have e2 := getTimestamp_denotes h2 r2
  refine ⟨?_, ?_⟩
  · rw [timeLesser, e1, e2]
    simp only [Out.ok.injEq, decide_eq_decide]
    constructor <;> intro h <;> grind
  · rw [timeGreater, e1, e2]
    simp only [Out.ok.injEq, decide_eq_decide, gt_iff_lt]
    constructor <;> intro h <;> grind

example : Denotes 2000000000 (.int 60) 2000000060 ∧ Readable (.int 60) ∧
    Denotes 2000000000 (.str (some 1500000000)) 1500000000 := by
  refine ⟨.inr (.inr (.inl ⟨60, rfl, by decide, by decide +kernel⟩)), ?_, .inr (.inl rfl)⟩
  intro t h; cases h

/-- C299: an argument from which the comparisons get a moment denotes it; arguments
denoting none are errors; arguments denoting one are accepted unless they are
strings for moments before 1970. -/
theorem arguments_partial (now : Rat) (a : Arg) :
    (∀ t, getTimestamp now a = some t → Denotes now a t) ∧
    ((∀ t, ¬ Denotes now a t) → ∀ b, timeLesser now a b = .err ∧ timeGreater now a b = .err) ∧
    (∀ t, Denotes now a t → Readable a → getTimestamp now a = some t) := by
  refine ⟨fun t h => denotes_of_getTimestamp h, ?_, fun t h r => getTimestamp_denotes h r⟩
  intro h b
  cases hg : getTimestamp now a with
  | none => simp [timeLesser, timeGreater, hg]
  | some t => exact (h t (denotes_of_getTimestamp hg)).elim

example : ∀ t, ¬ Denotes 0 .other t := by
  intro t h; simp [Denotes] at h

/-- C299: a string for any moment before 1970 is refused, though it can be read. -/
theorem arguments_violated (now t : Rat) (ht : t < 0) (b : Arg) :
    Denotes now (.str (some t)) t ∧ timeLesser now (.str (some t)) b = .err := by
  refine ⟨.inr (.inl rfl), ?_⟩
  simp [timeLesser, getTimestamp, ht]

example : ((-5 : Rat) < 0) := by decide +kernel

/-- C300: `difftime` of two moments is the first minus the second; `time-until` and
`time-since` are each other's opposites. -/
theorem difftime_partial (now elapsed t1 t2 : Rat) (a b : Arg)
    (h1 : Denotes now a t1) (r1 : Readable a) (h2 : Denotes now b t2) (r2 : Readable b) :
    difftime now elapsed a b = .ok (t1 - t2) ∧
    timeUntil now elapsed a = .ok (t1 - now) ∧
    timeSince now elapsed a = .ok (now - t1) := by
  have e1 := getTimestamp_denotes h1 r1
  have e2 := getTimestamp_denotes h2 r2
  have hf : ∀ x, a ≠ .flo x := by
    rintro x rfl; simp [getTimestamp] at e1
  have hd : ∀ b, difftime now elapsed a b =
      match getTimestamp now a, getTimestamp now b with
      | some t1, some t2 => .ok (t1 - t2)
      | _, _ => .err := by
    intro b
    rw [difftime.eq_def]
    split
    · exact (hf _ rfl).elim
    · exact (hf _ rfl).elim
    · rfl
  refine ⟨by rw [hd, e1, e2], by rw [timeUntil, hd, e1]; rfl, ?_⟩
  have hs : difftime now elapsed .void a =
      match getTimestamp now .void, getTimestamp now a with
      | some t1, some t2 => .ok (t1 - t2)
      | _, _ => .err := rfl
  rw [timeSince, hs, e1]
  rfl

example : difftime 100 7 (.stamp 50) (.stamp 20) = .ok 30 ∧
    timeUntil 100 7 (.stamp 150) = .ok 50 ∧ timeSince 100 7 (.stamp 50) = .ok 50 := by
  decide +kernel

/-- C300: for a flonum of elapsed time `time-until` gives the time since then, and
`time-since` is an error. -/
theorem difftime_violated (now elapsed x : Rat) :
    timeUntil now elapsed (.flo x) = .ok (elapsed - x) ∧
    timeSince now elapsed (.flo x) = .err := ⟨rfl, rfl⟩

/-- C301: for arguments denoting moments and thresholds of whole seconds which are not
negative, `future?` and `past?` say whether the moment is more than the threshold
away from now. -/
theorem future_past_partial (now t : Rat) (a : Arg) (th : Int)
    (h : Denotes now a t) (r : Readable a) (h0 : 0 ≤ th) :
    futurep now a (some th) = decide (now + th < t) ∧
    pastp now a (some th) = decide (t < now - th) ∧
    futurep now a none = decide (now < t) ∧ pastp now a none = decide (t < now) := by
  have e := getTimestamp_denotes h r
  have hpos : ¬ ((th : Rat) < 0) := by
    intro hc
    have : (th : Rat) < ((0 : Int) : Rat) := by simpa using hc
    rw [Rat.intCast_lt_intCast] at this
    omega
  have ht : threshold (some (th : Rat)) = (th : Rat) := by
    simp only [threshold, toInt]
    rw [if_neg hpos, Rat.floor_intCast]
  have h0' : (0 : Rat) ≤ th := by grind
  have g : ∀ x : Rat, 0 ≤ x → (cmpNow now a x > 0 ↔ now + x < t) := by
    intro x hx
    rw [cmpNow, e]
    dsimp only
    by_cases h1 : t - now > x
    · rw [if_pos h1]; grind
    · rw [if_neg h1]
      by_cases h2 : t - now < -x
      · rw [if_pos h2]; grind
      · rw [if_neg h2]; grind
  have l : ∀ x : Rat, 0 ≤ x → (cmpNow now a x < 0 ↔ t < now - x) := by
    intro x hx
    rw [cmpNow, e]
    dsimp only
    by_cases h1 : t - now > x
    · rw [if_pos h1]; grind
    · rw [if_neg h1]
      by_cases h2 : t - now < -x
      · rw [if_pos h2]; grind
      · rw [if_neg h2]; grind
  have z : threshold none = 0 := rfl
  refine ⟨?_, ?_, ?_, ?_⟩
  · rw [futurep, ht, decide_eq_decide, g _ h0']
  · rw [pastp, ht, decide_eq_decide, l _ h0']
  · rw [futurep, z, decide_eq_decide, g _ (by grind)]; grind
  · rw [pastp, z, decide_eq_decide, l _ (by grind)]; grind

example : futurep 100 (.stamp 103) (some 2) = true ∧ futurep 100 (.stamp 103) (some 3) = false := by
  decide +kernel

/-- C301: whatever denotes no moment is in the future, and thresholds below a second
count as none. -/
theorem future_past_violated (now : Rat) (th : Option Rat) :
    futurep now .other th = true ∧ pastp now .other th = false ∧
    (∃ (t x : Rat), now < t ∧ t < now + x ∧ futurep now (.stamp t) (some x) = true) := by
  refine ⟨rfl, rfl, now + 1/4, 1/2, by grind, by grind, ?_⟩
  have hx : threshold (some (1/2 : Rat)) = 0 := by decide +kernel
  simp only [futurep, cmpNow, getTimestamp, hx, decide_eq_true_eq]
  rw [if_pos (by grind)]
  decide

/-- C302: `timestamp+` and `timestamp-` move a moment by a number of seconds, forwards
and backwards, and undo each other. -/
theorem plus_minus_partial (now t d : Rat) (a b : Arg)
    (h : Denotes now a t) (r : Readable a) (hb : number b = some d) :
    plusHelper now a b false = .ok (t + d) ∧ plusHelper now a b true = .ok (t - d) ∧
    plusHelper now b .void false = .ok (now + d) ∧
    plusHelper now (.stamp (t + d)) b true = .ok t := by
  have e := getTimestamp_denotes h r
  have hv : b ≠ .void := by rintro rfl; simp [number] at hb
  have key : ∀ a neg, plusHelper now a b neg =
      match getTimestamp now a with
      | some t => .ok (t + (if neg then -d else d))
      | none => .undefined := by
    intro a neg
    rw [plusHelper.eq_def]
    split
    · exact (hv rfl).elim
    · rw [hb]; rfl
  refine ⟨by rw [key, e]; simp, ?_, by simp [plusHelper, hb], ?_⟩
  · rw [key, e]; simp; grind
  · rw [key]; simp [getTimestamp]; grind

example : plusHelper 100 (.stamp 5) (.int 7) false = .ok 12 ∧
    plusHelper 100 (.stamp 5) (.int 7) true = .ok (-2) := by decide +kernel

/-- C302: when the first argument denotes no moment, or is a string for one before 1970,
the program reads from `NULL`. -/
theorem plus_minus_violated (now d : Rat) (a b : Arg) (neg : Bool)
    (h : getTimestamp now a = none) (hb : number b = some d) :
    plusHelper now a b neg = .undefined := by
  have hv : b ≠ .void := by rintro rfl; simp [number] at hb
  rw [plusHelper.eq_def]
  split
  · exact (hv rfl).elim
  · rw [hb, h]

example : getTimestamp 100 (.other) = none ∧ number (.int 3) = some 3 := ⟨rfl, rfl⟩

/-- C303: a timestamp made from a flonum from 0 up to 2 to the 32 has its whole seconds
and the nanoseconds below the rest. -/
theorem timestamp_flonum_partial (x : Rat) (h0 : 0 ≤ x) (h1 : x < 4294967296) :
    ∃ s n : Int, timestampFlo x = .ok (s, n) ∧ 0 ≤ s ∧ 0 ≤ n ∧ n < 1000000000 ∧
      (s : Rat) ≤ x ∧ x < s + 1 ∧ (n : Rat) ≤ (x - s) * 1000000000 ∧
      (x - s) * 1000000000 < n + 1 := by
  have hf0 : 0 ≤ x.floor := by
    rw [Rat.le_floor_iff]; simpa using h0
  have hf1 : x.floor < 4294967296 := by
    rw [Rat.floor_lt_iff]; simpa using h1
  have a1 : (x.floor : Rat) ≤ x := Rat.floor_le x
  have a2 : x < x.floor + 1 := by have := @Rat.lt_floor x; grind
  have b1 : ((((x - x.floor) * 1000000000).floor : Int) : Rat) ≤ (x - x.floor) * 1000000000 :=
    Rat.floor_le _
  have b2 : (x - x.floor) * 1000000000 < ((((x - x.floor) * 1000000000).floor : Int) : Rat) + 1 := by
    have := @Rat.lt_floor ((x - x.floor) * 1000000000); grind
  refine ⟨x.floor, ((x - x.floor) * 1000000000).floor, ?_, hf0, ?_, ?_, a1, a2, b1, b2⟩
  · rw [timestampFlo, if_pos ⟨hf0, hf1⟩]
  · rw [Rat.le_floor_iff]; simp; grind
  · rw [Rat.floor_lt_iff]; simp; grind

example : timestampFlo (3/2) = .ok (1, 500000000) := by decide +kernel

/-- C303: for every moment before 1970, or from 2106 on, the conversion is undefined. -/
theorem timestamp_flonum_violated (x : Rat) (h : x < 0 ∨ 4294967296 ≤ x) :
    timestampFlo x = .undefined := by
  rw [timestampFlo, if_neg]
  rintro ⟨h0, h1⟩
  rw [Rat.le_floor_iff] at h0
  rw [Rat.floor_lt_iff] at h1
  simp at h0 h1
  grind

example : (4294967296 : Rat) ≤ 5000000000 := by decide +kernel

/-- C304: a stored part of a date, other than the month, can be read afterwards and the
other parts are as before; years have to be given in full. -/
theorem set_get_partial (mk : XTime → Int) (xt : XTime) (slot : Slot) (v : Int)
    (hp : 6 ≤ xt.prec.rank) (hs : (xtimeSet mk xt slot v).2 = .stored)
    (hm : slot ≠ .month) (hy : slot = .year → 100 ≤ v) :
    xtimeGet (xtimeSet mk xt slot v).1 slot = some v ∧
    ∀ s, s ≠ slot → xtimeGet (xtimeSet mk xt slot v).1 s = xtimeGet xt s := by
  have hpr : ∀ k, k ≤ 6 → k ≤ xt.prec.rank := fun k hk => Nat.le_trans hk hp
  have h1 := hpr 1 (by decide)
  have h2 := hpr 2 (by decide)
  have h3 := hpr 3 (by decide)
  have h4 := hpr 4 (by decide)
  have h5 := hpr 5 (by decide)
  cases slot with
  | month => exact (hm rfl).elim
  | year =>
    have h100 := hy rfl
    have c1 : (0 : Int) ≤ v := by omega
    have c2 : ¬ v < 50 := by omega
    have c3 : ¬ v < 100 := by omega
    simp only [xtimeSet, setField, if_pos c1, if_neg c2, if_neg c3, xtimeGet, if_pos h1]
    refine ⟨trivial, fun s hs => ?_⟩
    cases s <;> first | rfl | exact (hs rfl).elim
  | date =>
    by_cases c : 0 < v ∧ v < 32
    · simp only [xtimeSet, setField, if_pos c, xtimeGet, if_pos h3]
      refine ⟨congrArg some (by omega), fun s hs => ?_⟩
      cases s <;> first | rfl | exact (hs rfl).elim
    · simp [xtimeSet, setField, if_neg c] at hs
  | hours =>
    by_cases c : 0 ≤ v ∧ v < 32
    · simp only [xtimeSet, setField, if_pos c, xtimeGet, if_pos h4]
      refine ⟨congrArg some (by omega), fun s hs => ?_⟩
      cases s <;> first | rfl | exact (hs rfl).elim
    · simp [xtimeSet, setField, if_neg c] at hs
  | minutes =>
    by_cases c : 0 ≤ v ∧ v < 60
    · simp only [xtimeSet, setField, if_pos c, xtimeGet, if_pos h5]
      refine ⟨congrArg some (by omega), fun s hs => ?_⟩
      cases s <;> first | rfl | exact (hs rfl).elim
    · simp [xtimeSet, setField, if_neg c] at hs
  | seconds =>
    by_cases c : 0 ≤ v ∧ v < 60
    · simp only [xtimeSet, setField, if_pos c, xtimeGet, if_pos hp]
      refine ⟨congrArg some (by omega), fun s hs => ?_⟩
      cases s <;> first | rfl | exact (hs rfl).elim
    · simp [xtimeSet, setField, if_neg c] at hs

/-- A timestamp. -/
def exTime : XTime :=
  { tick := 1000000000, nsecs := 999999999, prec := .nanosecond, year := 2001, mon := 8,
    mday := 9, hour := 1, min := 46, sec := 40, tzoff := 0, dstoff := 0 }

example : (xtimeSet (fun _ => 1000000060) exTime .minutes 47).2 = .stored ∧
    xtimeGet (xtimeSet (fun _ => 1000000060) exTime .minutes 47).1 .minutes = some 47 := by
  decide

/-- C304: a stored month is read as the month before, and a year below 100 as another
one, whatever the calendar. -/
theorem set_get_violated (mk : XTime → Int) (xt : XTime) (v : Int)
    (hp : 2 ≤ xt.prec.rank) :
    (1 ≤ v → v ≤ 12 → xtimeGet (xtimeSet mk xt .month v).1 .month = some (v - 1)) ∧
    (0 ≤ v → v < 100 → xtimeGet (xtimeSet mk xt .year v).1 .year ≠ some v) := by
  have h1 : 1 ≤ xt.prec.rank := by omega
  constructor
  · intro a b
    have c : 0 < v ∧ v < 13 := by omega
    simp only [xtimeSet, setField, if_pos c, xtimeGet, if_pos hp]
    exact congrArg some (by omega)
  · intro a b
    simp only [xtimeSet, setField, if_pos a, xtimeGet, if_pos h1]
    intro h
    simp at h
    split at h <;> omega

example : xtimeGet (xtimeSet (fun _ => 5) exTime .month 3).1 .month = some 2 := by decide

/-- C305: storing a possible value for a part of a date works when the moment is from
1970 on and before 2038. -/
theorem set_works_partial (mk : XTime → Int) (xt : XTime) (slot : Slot) (v : Int)
    (hv : Possible slot v) (hy : slot = .year → 0 ≤ v)
    (hmk : ∀ xt', 0 ≤ mk xt' ∧ mk xt' < 2147483648) :
    (xtimeSet mk xt slot v).2 = .stored := by
  have hb : ∀ xt', ¬ Int.bmod (mk xt') 4294967296 < 0 := by
    intro xt'
    have := hmk xt'
    rw [Int.bmod_def]
    split <;> omega
  have hsome : ∃ xt', setField xt slot v = some xt' := by
    cases slot with
    | year => exact ⟨_, by rw [setField, if_pos (hy rfl)]⟩
    | _ =>
      simp only [Possible] at hv
      exact ⟨_, by rw [setField, if_pos (by omega)]⟩
  obtain ⟨xt', h⟩ := hsome
  rw [xtimeSet, h]
  dsimp only
  rw [if_neg (hb xt')]

example : (∀ xt' : XTime, 0 ≤ (fun _ => (1000000060 : Int)) xt' ∧
    (fun _ => (1000000060 : Int)) xt' < 2147483648) := by
  intro _; dsimp only; decide

/-- C305: whenever the moment is before 1970, or in the 68 years after 2038, storing fails
without an error, and yet the timestamp is changed. -/
theorem set_works_violated (mk : XTime → Int) (xt xt' : XTime) (slot : Slot) (v : Int)
    (h : setField xt slot v = some xt')
    (hmk : (-2147483648 ≤ mk xt' ∧ mk xt' < 0) ∨
      (2147483648 ≤ mk xt' ∧ mk xt' < 4294967296)) :
    xtimeSet mk xt slot v = ({ xt' with tick := mk xt' }, .failed) := by
  have hb : Int.bmod (mk xt') 4294967296 < 0 := by
    rw [Int.bmod_def]
    split <;> omega
  rw [xtimeSet, h]
  dsimp only
  rw [if_pos hb]

example : (xtimeSet (fun _ => 2208988800) exTime .year 2040).2 = .failed ∧
    (xtimeSet (fun _ => 2208988800) exTime .year 2040).1.year = 2040 := by decide

/-- C306: impossible months, minutes, seconds and days of the month are refused, with the
timestamp left as it was. -/
theorem impossible_partial (mk : XTime → Int) (xt : XTime) (slot : Slot) (v : Int)
    (hs : slot ≠ .hours) (hv : ¬ Possible slot v) :
    xtimeSet mk xt slot v = (xt, .typeError) := by
  have h : setField xt slot v = none := by
    cases slot with
    | hours => exact (hs rfl).elim
    | year => simp [Possible] at hv
    | _ =>
      simp only [Possible] at hv
      rw [setField, if_neg (by omega)]
  rw [xtimeSet, h]

example : ¬ Possible .month 13 ∧ ¬ Possible .date 0 ∧ ¬ Possible .seconds 60 := by
  simp [Possible]

/-- C306: the hours from 24 to 31 are accepted. -/
theorem impossible_violated (mk : XTime → Int) (xt : XTime) (v : Int)
    (h0 : 24 ≤ v) (h1 : v ≤ 31) (hmk : ∀ xt', 0 ≤ mk xt' ∧ mk xt' < 2147483648) :
    ¬ Possible .hours v ∧ (xtimeSet mk xt .hours v).2 = .stored ∧
    (xtimeSet mk xt .hours v).1.hour = v := by
  have hb : ∀ xt', ¬ Int.bmod (mk xt') 4294967296 < 0 := by
    intro xt'
    have := hmk xt'
    rw [Int.bmod_def]
    split <;> omega
  have c : 0 ≤ v ∧ v < 32 := by omega
  refine ⟨by simp [Possible]; omega, ?_, ?_⟩
  · simp only [xtimeSet, setField, if_pos c]
    rw [if_neg (hb _)]
  · simp only [xtimeSet, setField, if_pos c]

/-- C307: nanoseconds are exact, and the plural slots give the nearest whole number of
microseconds or milliseconds, as `millisecond` does. -/
theorem subseconds_partial (xt : XTime) (s : Sub) (hp : xt.prec = .nanosecond)
    (hs : s ≠ .microsecond) :
    ∃ n, subGet xt s = some n ∧ 2 * (n * s.nanos) ≤ 2 * xt.nsecs + s.nanos ∧
      2 * xt.nsecs ≤ 2 * (n * s.nanos) + s.nanos := by
  cases s with
  | microsecond => exact (hs rfl).elim
  | nanoseconds => exact ⟨xt.nsecs, by simp [subGet, hp, Prec.rank], by simp [Sub.nanos],
      by simp [Sub.nanos]⟩
  | nanosecond => exact ⟨xt.nsecs, by simp [subGet, hp, Prec.rank], by simp [Sub.nanos],
      by simp [Sub.nanos]⟩
  | microseconds =>
    refine ⟨_, by simp [subGet, hp, Prec.rank, reduceBy]; rfl, ?_, ?_⟩ <;>
      · simp only [Sub.nanos]; split <;> omega
  | milliseconds =>
    refine ⟨_, by simp [subGet, hp, Prec.rank, reduceBy]; rfl, ?_, ?_⟩ <;>
      · simp only [Sub.nanos]; split <;> omega
  | millisecond =>
    refine ⟨_, by simp [subGet, hp, Prec.rank, reduceBy]; rfl, ?_, ?_⟩ <;>
      · simp only [Sub.nanos]; split <;> omega

example : subGet { exTime with nsecs := 1234567 } .microseconds = some 1235 := by decide

/-- C307: `microsecond` gives milliseconds, and at the end of a second there are 1000
milliseconds in it. -/
theorem subseconds_violated (xt : XTime) (hp : xt.prec = .nanosecond) :
    subGet xt .microsecond = subGet xt .milliseconds ∧
    (999500000 ≤ xt.nsecs → xt.nsecs < 1000000000 → subGet xt .milliseconds = some 1000) := by
  constructor
  · simp [subGet, hp, Prec.rank, reduceBy]
  · intro h1 h2
    have hr : reduceBy .milliseconds = 1000000 := rfl
    simp only [subGet, hp, Prec.rank]
    rw [if_pos (by decide), if_neg (by decide)]
    refine congrArg some ?_
    rw [if_pos (by rw [hr]; omega), hr]
    omega

example : subGet exTime .milliseconds = some 1000 := by decide

/-- C308: every month has one or two seasons and every hour one or two times of day; the
quarters of the year are entirely in their seasons. -/
theorem seasons_cover (m h : Int) (hm : 0 ≤ m ∧ m < 12) (hh : 0 ≤ h ∧ h < 24) :
    (1 ≤ (seasons m).length ∧ (seasons m).length ≤ 2 ∧ (seasons m).Nodup) ∧
    (1 ≤ (dayTimes h).length ∧ (dayTimes h).length ≤ 2 ∧ (dayTimes h).Nodup) ∧
    (Season.winter ∈ seasons m ↔ m = 11 ∨ m ≤ 2) ∧
    (Season.spring ∈ seasons m ↔ 2 ≤ m ∧ m ≤ 4) ∧
    (Season.summer ∈ seasons m ↔ 5 ≤ m ∧ m ≤ 8) ∧
    (Season.autumn ∈ seasons m ↔ 8 ≤ m ∧ m ≤ 10) := by
  have h1 : m = 0 ∨ m = 1 ∨ m = 2 ∨ m = 3 ∨ m = 4 ∨ m = 5 ∨ m = 6 ∨ m = 7 ∨ m = 8 ∨ m = 9 ∨
      m = 10 ∨ m = 11 := by omega
  have d : 1 ≤ (dayTimes h).length ∧ (dayTimes h).length ≤ 2 ∧ (dayTimes h).Nodup := by
    simp only [dayTimes]
    repeat' split
    all_goals first | omega | decide
  refine ⟨?_, d, ?_⟩
  · rcases h1 with rfl | rfl | rfl | rfl | rfl | rfl | rfl | rfl | rfl | rfl | rfl | rfl <;> decide
  · rcases h1 with rfl | rfl | rfl | rfl | rfl | rfl | rfl | rfl | rfl | rfl | rfl | rfl <;> decide

example : seasons 8 = [.summer, .autumn] ∧ dayTimes 17 = [.afternoon, .evening] := by decide

/-- C309: with a precision below a minute what `secs->string` lists adds up to the
duration; every listed count is positive, the units are in order and each at most
once, and the counts are as small as they can be; "negative" is said exactly for
negative numbers. -/
theorem secs_string_exact (n prec : Int) (hn : n ≠ 0) (hp : prec < 60) :
    total (secsString n prec).2 = n.natAbs ∧
    ((secsString n prec).1 = true ↔ n < 0) ∧
    (∀ x ∈ (secsString n prec).2, 0 < x.2) ∧
    ((secsString n prec).2.map Prod.fst).Sublist
      [.year, .month, .week, .day, .hour, .minute, .second] ∧
    (∀ x ∈ (secsString n prec).2, x.1 ≠ .year →
      x.2 ≤ 59 ∧ (x.1 = .hour → x.2 < 24) ∧ (x.1 = .day → x.2 < 7) ∧
      (x.1 = .week → x.2 < 5) ∧ (x.1 = .month → x.2 ≤ 12)) := by
  rw [secsString, if_neg hn]
  refine ⟨?_, by simp, fun x hx => (listing_mem _ _ _ x hx).1, ?_, ?_⟩
  · rw [listing_total prec hp, breakdown_total]
  · have := (listing_sublist prec (breakdown n.natAbs).2 (breakdown n.natAbs).1).map Prod.fst
    simpa [breakdown] using this
  · intro x hx hy
    have h := (listing_mem _ _ _ x hx).2
    simp only [breakdown, List.mem_cons, List.not_mem_nil, or_false] at h
    rcases h with (rfl | rfl | rfl | rfl | rfl | rfl) | rfl
    · exact (hy rfl).elim
    all_goals
      simp
      omega

example : secsString (-90061) 3 = (true, [(.day, 1), (.hour, 1), (.minute, 1), (.second, 1)]) := by
  decide +kernel

/-- C310: with a precision of a unit, nothing finer is listed when the unit is; this is so
for days, hours and minutes. -/
theorem secs_string_precision_partial (n : Int) (u : Unit') (c : Nat)
    (hu : u = .day ∨ u = .hour ∨ u = .minute)
    (h : (u, c) ∈ (secsString n (seconds u)).2) :
    ∀ x ∈ (secsString n (seconds u)).2, seconds u ≤ seconds x.1 := by
  by_cases hn : n = 0
  · subst hn
    simp [secsString] at h
    obtain ⟨rfl, rfl⟩ := h
    simp at hu
  · rw [secsString, if_neg hn] at h ⊢
    have key : ∀ (l : List (Unit' × Nat)) (rest : Nat),
        l.Pairwise (fun a b => seconds b.1 < seconds a.1) →
        (u, c) ∈ listing (seconds u) rest l →
        ∀ x ∈ listing (seconds u) rest l, seconds u ≤ seconds x.1 := by
      intro l rest
      induction l with
      | nil =>
        intro _ h
        rw [listing] at h
        split at h
        · simp at h
        · simp at h
          obtain ⟨rfl, _⟩ := h
          simp at hu
      | cons y more ih =>
        obtain ⟨v, k⟩ := y
        intro hl h x hx
        rw [listing] at h hx
        rw [List.pairwise_cons] at hl
        split at h
        · rename_i hk
          rw [if_pos hk] at hx
          split at h
          · rename_i hst
            rw [if_pos hst] at hx
            simp at h hx
            obtain ⟨rfl, rfl⟩ := h
            subst hx
            exact Nat.le_refl _
          · rename_i hst
            rw [if_neg hst] at hx
            rcases List.mem_cons.1 h with h | h
            · simp at h
              obtain ⟨rfl, rfl⟩ := h
              exfalso
              apply hst
              rcases hu with rfl | rfl | rfl <;> decide
            · rcases List.mem_cons.1 hx with rfl | hx
              · have hm := (listing_mem _ _ _ _ h).2
                rcases hm with hm | hm
                · exact Nat.le_of_lt (hl.1 _ hm)
                · simp at hm
                  obtain ⟨rfl, _⟩ := hm
                  simp at hu
              · exact ih hl.2 h x hx
        · rename_i hk
          rw [if_neg hk] at hx
          exact ih hl.2 h x hx
    exact key _ _ (by simp [breakdown, seconds]) h

example : (Unit'.hour, 2) ∈ (secsString 7384 3600).2 ∧ secsString 7384 3600 = (false, [(.hour, 2)]) := by
  decide +kernel

/-- C310: a day and five seconds, to the precision of an hour, is given to the second;
and a precision of years does not stop anything. -/
theorem secs_string_precision_violated :
    secsString 86405 3600 = (false, [(.day, 1), (.second, 5)]) ∧
    secsString 31536065 31536000 = (false, [(.year, 1), (.minute, 1)]) ∧
    secsString 31536005 31536000 = (false, [(.year, 1), (.second, 5)]) := by
  decide +kernel

/-- C311: the days, hours, minutes and seconds of `secs->short` add up to the duration,
with fewer than 24 hours, 60 minutes and 60 seconds. -/
theorem secs_short_exact (n : Int) (neg : Bool) (d h m s : Nat)
    (e : secsShort n = (neg, d, h, m, s)) :
    d * 86400 + h * 3600 + m * 60 + s = n.natAbs ∧ h < 24 ∧ m < 60 ∧ s < 60 ∧
    (neg = true ↔ n < 0) := by
  simp only [secsShort, Prod.mk.injEq] at e
  obtain ⟨rfl, rfl, rfl, rfl, rfl⟩ := e
  refine ⟨by omega, by omega, by omega, by omega, by simp⟩

example : secsShort (-90061) = (true, 1, 1, 1, 1) := by decide +kernel

/-- C312: an offset from -48 to 47 is in hours, up to two days in seconds, and more is an
error; setting an offset sets it, and leaves the moment and, for daylight saving,
the offset from GMT. -/
theorem offsets_exact (xt xt' : XTime) (o : Off) (v : Int) :
    (setOff xt o v = none ↔ v ≤ -172800 ∨ 172800 ≤ v) ∧
    (setOff xt o v = some xt' →
      getOff xt' o = (if -48 ≤ v ∧ v < 48 then v * 3600 else v) ∧
      xt'.tick = xt.tick ∧ xt'.nsecs = xt.nsecs ∧
      (o = .dstoff → getOff xt' .gmtoff = getOff xt .gmtoff) ∧
      (o ≠ .dstoff → getOff xt' .dstoff = getOff xt .dstoff)) := by
  by_cases c : v < 172800 ∧ v > -172800
  · have htz : tzvalueok v = some (if -48 ≤ v ∧ v < 48 then v * 3600 else v) := by
      rw [tzvalueok, if_pos c]
      split
      · rw [if_pos (by omega)]
      · split
        · rw [if_pos (by omega)]
        · rw [if_neg (by omega)]
    constructor
    · constructor
      · intro h
        cases o <;> simp [setOff, htz] at h
      · omega
    · intro h
      cases o <;> simp only [setOff, htz, Option.some.injEq] at h <;> subst h <;>
        simp [getOff] <;> omega
  · have htz : tzvalueok v = none := by rw [tzvalueok, if_neg c]
    constructor
    · constructor
      · intro _; omega
      · intro _; simp [setOff, htz]
    · intro h; simp [setOff, htz] at h

example : (setOff exTime .dstoff 1).map (fun x => (x.tzoff, x.dstoff)) = some (-3600, 3600) := by
  decide

end Kno.Times
