import Verif.Alloc.Model

/-! # Property C24: allocation never hands out an OID twice -/

namespace Kno.Alloc

/-- Requests are for no more OIDs than an `int` holds. -/
def Modest (requests : Nat → List Int) : Prop := ∀ t, ∀ n ∈ requests t, 0 ≤ n ∧ n < 2 ^ 31

/-- Commits do not overlap with allocations. -/
def NoOverlap (sched : List Event) : Prop := .commitRead ∉ sched ∧ .commitWrite ∉ sched

/-- A pool whose addresses are 64-bit numbers, with the given load. -/
structure Sound (p : Pool) : Prop where
  load : p.load ≤ p.cap
  cap : p.cap ≤ 2 ^ 31
  last : p.base + p.cap ≤ 2 ^ 64
  saving : p.saving = none

theorem plus_eq {load : Nat} {n : Int} (h0 : 0 ≤ n) (h1 : n < 2 ^ 31) (h2 : load ≤ 2 ^ 31) :
    plus load n = load + n.toNat := by
  unfold plus
  rw [Int.emod_eq_of_lt h0 (by omega), Nat.mod_eq_of_lt (by omega)]

theorem addrs_eq {base start : Nat} {n : Int} (h : base + (start + n.toNat) ≤ 2 ^ 64)
    (h2 : start + n.toNat ≤ 2 ^ 31) : addrs base start n = List.range' (base + start) n.toNat := by
  unfold addrs
  rw [List.range'_eq_map_range]
  refine List.map_congr_left fun i hi => ?_
  have := List.mem_range.1 hi
  rw [Nat.mod_eq_of_lt (a := start + i) (by omega), Nat.mod_eq_of_lt (by omega)]
  omega

/-- What every reachable state satisfies: the addresses handed out are those from the
original load to the present one. -/
structure Inv (p0 : Pool) (s : Sys) : Prop where
  sound : Sound s.pool
  base : s.pool.base = p0.base
  cap : s.pool.cap = p0.cap
  low : p0.load ≤ s.pool.load
  got : granted s.log = List.range' (p0.base + p0.load) (s.pool.load - p0.load)
  todo : ∀ t, ∀ n ∈ (s.threads t).todo, 0 ≤ n ∧ n < 2 ^ 31

theorem granted_append (l m : List (Int × Option (List Nat))) :
    granted (l ++ m) = granted l ++ granted m := List.flatMap_append

/-- A step, and what it adds to the log. -/
theorem step_inv (d : Driver) (hz : d ≠ .zero) {p0 : Pool} {s : Sys} (hs : Inv p0 s) (e : Event)
    (h1 : e ≠ .commitRead) (h2 : e ≠ .commitWrite) :
    Inv p0 (step d s e) ∧
      ((step d s e).log = s.log ∨
        ∃ n o, (step d s e).log = s.log ++ [(n, o)] ∧ 0 ≤ n ∧
          match o with
          | some l => l.length = n.toNat
          | none => (step d s e).pool = s.pool ∧
              (if d = .mem then p0.cap ≤ p0.load + (granted s.log).length + n.toNat
                else p0.cap < p0.load + (granted s.log).length + n.toNat)) := by
  have hlen : (granted s.log).length = s.pool.load - p0.load := by rw [hs.got]; simp
  have hc := hs.sound.cap
  have hl := hs.sound.load
  have hlow := hs.low
  cases e with
  | commitRead => exact absurd rfl h1
  | commitWrite => exact absurd rfl h2
  | commit =>
    refine ⟨?_, .inl rfl⟩
    have hp : (step d s .commit).pool.load = s.pool.load ∧ (step d s .commit).pool.base = s.pool.base ∧
        (step d s .commit).pool.cap = s.pool.cap ∧ (step d s .commit).pool.saving = none := by
      simp only [step, finish]
      split <;> simp
    obtain ⟨e1, e2, e3, e4⟩ := hp
    exact { sound := ⟨by rw [e1, e3]; exact hl, by rw [e3]; exact hc,
              by rw [e2, e3]; exact hs.sound.last, e4⟩
            base := by rw [e2]; exact hs.base
            cap := by rw [e3]; exact hs.cap
            low := by rw [e1]; exact hlow
            got := by rw [e1]; exact hs.got
            todo := hs.todo }
  | thread t =>
    cases htd : (s.threads t).todo with
    | nil =>
      have : step d s (.thread t) = s := by simp only [step, htd]
      rw [this]
      exact ⟨hs, .inl rfl⟩
    | cons n rest =>
      obtain ⟨hn0, hn1⟩ := hs.todo t n (by rw [htd]; exact List.mem_cons_self)
      have hplus := plus_eq hn0 hn1 (by omega : s.pool.load ≤ 2 ^ 31)
      have htodo : ∀ (l : List Int) (c : Bool), (∀ m ∈ l, 0 ≤ m ∧ m < 2 ^ 31) → ∀ u,
          ∀ m ∈ ((if u = t then (⟨l, c⟩ : Thread) else s.threads u).todo), 0 ≤ m ∧ m < 2 ^ 31 := by
        intro l c h u m hm
        split at hm
        · exact h m hm
        · exact hs.todo u m hm
      have hrest : ∀ m ∈ rest, 0 ≤ m ∧ m < 2 ^ 31 := fun m hm =>
        hs.todo t m (by rw [htd]; exact List.mem_cons_of_mem _ hm)
      have hall : ∀ m ∈ n :: rest, 0 ≤ m ∧ m < 2 ^ 31 := by rw [← htd]; exact hs.todo t
      have href : d.refuses s.pool n = true →
          if d = .mem then p0.cap ≤ p0.load + (granted s.log).length + n.toNat
            else p0.cap < p0.load + (granted s.log).length + n.toNat := by
        intro hr
        have hcap := hs.cap
        cases d with
        | file => simp only [Driver.refuses, hplus, decide_eq_true_eq] at hr; simp; omega
        | mem => simp only [Driver.refuses, hplus, decide_eq_true_eq] at hr; simp; omega
        | zero => exact absurd rfl hz
      have hnot : d.refuses s.pool n = false → s.pool.load + n.toNat ≤ s.pool.cap := by
        intro hr
        cases d with
        | file => simp only [Driver.refuses, hplus, decide_eq_false_iff_not] at hr; omega
        | mem => simp only [Driver.refuses, hplus, decide_eq_false_iff_not] at hr; omega
        | zero => exact absurd rfl hz
      have hgotn : ∀ c : Int, granted (s.log ++ [(c, none)]) = granted s.log := by
        intro c; rw [granted_append]; simp [granted]
      have hfail : ∀ s' : Sys, s'.pool = s.pool →
          s'.threads = (fun u => if u = t then (⟨rest, false⟩ : Thread) else s.threads u) →
          s'.log = s.log ++ [(n, none)] → Inv p0 s' := by
        intro s' a1 a2 a3
        exact { sound := by rw [a1]; exact hs.sound
                base := by rw [a1]; exact hs.base
                cap := by rw [a1]; exact hs.cap
                low := by rw [a1]; exact hs.low
                got := by rw [a3, a1, hgotn]; exact hs.got
                todo := by rw [a2]; exact htodo rest false hrest }
      simp only [step, htd]
      by_cases hm : d = .mem ∧ (s.threads t).checked = false
      · rw [if_pos hm]
        rcases Bool.eq_false_or_eq_true (d.refuses s.pool n) with hr | hr
        · rw [if_pos hr]
          exact ⟨hfail _ rfl rfl rfl, .inr ⟨n, none, rfl, hn0, rfl, href hr⟩⟩
        · rw [if_neg (by rw [hr]; simp)]
          exact ⟨{ hs with todo := htodo (n :: rest) true hall }, .inl rfl⟩
      · rw [if_neg hm]
        rcases Bool.eq_false_or_eq_true (d.refuses s.pool n) with hr | hr
        · have hg : grab d s.pool n = (none, s.pool) := by rw [grab, if_pos hr]
          simp only [hg]
          exact ⟨hfail _ rfl rfl rfl, .inr ⟨n, none, rfl, hn0, trivial, href hr⟩⟩
        · have hroom := hnot hr
          have hlast := hs.sound.last
          have hg : grab d s.pool n = (some (addrs s.pool.base s.pool.load n),
              { s.pool with load := plus s.pool.load n }) := by
            rw [grab, if_neg (by rw [hr]; simp)]
          simp only [hg]
          refine ⟨?_, .inr ⟨n, some (addrs s.pool.base s.pool.load n), rfl, hn0, ?_⟩⟩
          · refine { sound := ⟨?_, hc, hlast, hs.sound.saving⟩, base := hs.base, cap := hs.cap,
                     low := ?_, got := ?_, todo := htodo rest false hrest }
            · simp only [hplus]; exact hroom
            · simp only [hplus]; omega
            · rw [granted_append, hs.got]
              simp only [granted, List.flatMap_cons, List.flatMap_nil, List.append_nil,
                Option.getD_some, hplus]
              rw [addrs_eq (by omega) (by omega), hs.base,
                show p0.base + s.pool.load = p0.base + p0.load + (s.pool.load - p0.load) by omega,
                List.range'_append_1]
              congr 1
              omega
          · simp [addrs]

/-- Every outcome in the log is one of the two: as many addresses as asked for, or failure
because there was no room. -/
def Decided (d : Driver) (p0 : Pool) (log : List (Int × Option (List Nat))) : Prop :=
  ∀ pre post n o, log = pre ++ (n, o) :: post →
    match o with
    | some l => l.length = n.toNat
    | none => if d = .mem then p0.cap ≤ p0.load + (granted pre).length + n.toNat
        else p0.cap < p0.load + (granted pre).length + n.toNat

theorem decided_append {d : Driver} {p0 : Pool} {log : List (Int × Option (List Nat))}
    (h : Decided d p0 log) {n : Int} {o : Option (List Nat)}
    (ho : match o with
      | some l => l.length = n.toNat
      | none => if d = .mem then p0.cap ≤ p0.load + (granted log).length + n.toNat
          else p0.cap < p0.load + (granted log).length + n.toNat) :
    Decided d p0 (log ++ [(n, o)]) := by
  intro pre post m q heq
  rcases List.eq_nil_or_concat post with rfl | ⟨post', x, rfl⟩
  · obtain ⟨h1, h2⟩ := List.append_inj' heq rfl
    simp only [List.cons.injEq, Prod.mk.injEq, and_true] at h2
    obtain ⟨rfl, rfl⟩ := h2
    rw [← h1]
    exact ho
  · rw [List.concat_eq_append, ← List.cons_append, ← List.append_assoc] at heq
    exact h pre post' m q (List.append_inj' heq rfl).1

theorem run_inv (d : Driver) (hz : d ≠ .zero) {p0 : Pool} : ∀ (sched : List Event) (s : Sys),
    NoOverlap sched → Inv p0 s → Decided d p0 s.log →
    Inv p0 (run d s sched) ∧ Decided d p0 (run d s sched).log := by
  intro sched
  induction sched with
  | nil => intro s _ hs hd; exact ⟨hs, hd⟩
  | cons e sched ih =>
    intro s hno hs hd
    have hno' : NoOverlap sched :=
      ⟨fun h => hno.1 (List.mem_cons_of_mem _ h), fun h => hno.2 (List.mem_cons_of_mem _ h)⟩
    obtain ⟨h1, h2⟩ := step_inv d hz hs e (by rintro rfl; exact hno.1 List.mem_cons_self)
      (by rintro rfl; exact hno.2 List.mem_cons_self)
    refine ih _ hno' h1 ?_
    rcases h2 with h2 | ⟨n, o, h2, _, h3⟩
    · rw [h2]; exact hd
    · rw [h2]
      refine decided_append hd ?_
      cases o with
      | some l => exact h3
      | none => exact h3.2

/-- C24 for pool files and pools in memory with up to 2^31 addresses, requests of up to
2^31-1, and commits that do not overlap with allocations: under any schedule of any number
of threads, the addresses handed out are distinct, are addresses of the pool not allocated
before, and fit into the room there was; every request gets as many as it asked for, unless
that would exceed the capacity (or, for pools in memory, reach it). -/
theorem alloc_partial (d : Driver) (hz : d ≠ .zero) (p : Pool) (hp : Sound p)
    (requests : Nat → List Int) (hr : Modest requests) (sched : List Event)
    (hs : NoOverlap sched) :
    (granted (run d (start p requests) sched).log).Nodup ∧
    (∀ a ∈ granted (run d (start p requests) sched).log,
      p.base + p.load ≤ a ∧ a < p.base + p.cap) ∧
    p.load + (granted (run d (start p requests) sched).log).length ≤ p.cap ∧
    Decided d p (run d (start p requests) sched).log := by
  have h0 : Inv p (start p requests) :=
    { sound := hp, base := rfl, cap := rfl, low := Nat.le_refl _,
      got := by simp [start, granted], todo := hr }
  obtain ⟨h1, h2⟩ := run_inv d hz sched _ hs h0 (by
    intro pre post n o h
    simp [start] at h)
  have hl := h1.sound.load
  have hlow := h1.low
  rw [h1.cap] at hl
  refine ⟨?_, ?_, ?_, h2⟩
  · rw [h1.got]; exact List.nodup_range'
  · intro a ha
    rw [h1.got, List.mem_range'_1] at ha
    omega
  · rw [h1.got, List.length_range']; omega

/-- C24, failure: a step that makes a request fail leaves the pool as it is, for any pool
and request. -/
theorem failure_unchanged (d : Driver) (s : Sys) (t : Nat) (n : Int)
    (h : (step d s (.thread t)).log = s.log ++ [(n, none)]) :
    (step d s (.thread t)).pool = s.pool := by
  cases htd : (s.threads t).todo with
  | nil => simp only [step, htd]
  | cons m rest =>
    simp only [step, htd] at h ⊢
    by_cases hm : d = .mem ∧ (s.threads t).checked = false
    · rw [if_pos hm] at h ⊢
      split <;> rfl
    · rw [if_neg hm] at h ⊢
      simp only [List.append_cancel_left_eq, List.cons.injEq, Prod.mk.injEq, and_true] at h
      unfold grab at h ⊢
      split
      · rfl
      · next hr => rw [if_neg hr] at h; exact absurd h.2 (by simp)

/-- Three threads, one of which asks for too much, with a commit in between. -/
def example1 : Sys :=
  run .file (start ⟨0x100, 10, 2, 2, none⟩ fun t => if t = 0 then [3, 1] else if t = 1 then [9, 2] else [1])
    [.thread 0, .thread 1, .commit, .thread 2, .thread 1, .thread 0, .thread 0]

example : Sound ⟨0x100, 10, 2, 2, none⟩ ∧
    example1.log = [(3, some [0x102, 0x103, 0x104]), (9, none), (1, some [0x105]),
      (2, some [0x106, 0x107]), (1, some [0x108])] :=
  ⟨⟨by decide, by decide, by decide, rfl⟩, by decide +kernel⟩

/-! ### Where the code does not have the property -/

/-- A pool in memory refuses a request for exactly what is left. -/
theorem mem_last_violated (base cap : Nat) (hc : 0 < cap) (h31 : cap < 2 ^ 31) (n : Nat)
    (load : Nat) (hl : load + n = cap) :
    grab .mem ⟨base, cap, load, load, none⟩ n = (none, ⟨base, cap, load, load, none⟩) := by
  rw [grab, if_pos]
  simp only [Driver.refuses, decide_eq_true_eq]
  rw [plus_eq (by omega) (by omega) (by omega)]
  simp
  omega

/-- The zero pool hands out addresses beyond its capacity. -/
theorem zero_violated (load : Nat) (h : load < 2 ^ 31) :
    grab .zero ⟨0, 0x100000, load, load, none⟩ 1 =
      (some [load], ⟨0, 0x100000, load + 1, load, none⟩) := by
  rw [grab, if_neg (by simp [Driver.refuses]), plus_eq (by omega) (by omega) (by simp only; omega)]
  simp only [addrs]
  simp
  omega

/-- `(allocate-oids pool 4294967291)` is accepted, returns nothing, and takes five off the
load: the addresses allocated last are handed out again. -/
theorem negative_violated :
    primRequest 4294967291 = some (-5) ∧
    (run .file (start ⟨0x100, 10, 0, 0, none⟩ fun _ => [5, -5, 5])
      [.thread 0, .thread 0, .thread 0]).log =
        [(5, some [0x100, 0x101, 0x102, 0x103, 0x104]), (-5, some []),
         (5, some [0x100, 0x101, 0x102, 0x103, 0x104])] := by
  decide +kernel

/-- In a pool of almost 2^32 addresses the test for room overflows: a request for more than
is left succeeds, and the next one is given addresses handed out before. -/
theorem wrap_violated :
    (grab .file ⟨0, 2 ^ 32 - 1, 2 ^ 32 - 2, 0, none⟩ 4).1 =
      some [2 ^ 32 - 2, 2 ^ 32 - 1, 0, 1] ∧
    (grab .file ⟨0, 2 ^ 32 - 1, 2 ^ 32 - 2, 0, none⟩ 4).2.load = 2 := by
  decide +kernel

/-- An allocation made while a commit is running is forgotten when the commit ends: the
address is handed out again. -/
theorem commit_race_violated :
    (run .file (start ⟨0x100, 10, 3, 0, none⟩ fun _ => [1])
      [.commitRead, .thread 0, .commitWrite, .thread 1]).log =
        [(1, some [0x103]), (1, some [0x103])] := by
  decide +kernel

end Kno.Alloc
