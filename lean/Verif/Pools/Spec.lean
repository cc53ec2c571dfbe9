import Verif.Pools.Model

/-! # What reading the values of OIDs should come to -/

namespace Kno.Pools

/-- What a program sees is consistent with OIDs having the values `m` at first and being
changed only by allocating, setting and modifying them. -/
def Consistent (m : Oid → Val) : List (Op × Result) → Prop
  | [] => True
  | (.get o, .value v) :: rest => v = m o ∧ Consistent m rest
  | (.set o v _, .done true) :: rest => Consistent (put m o v) rest
  | (.modify o d _, .done true) :: rest => (∃ d', m o = .tbl d') ∧ Consistent (put m o (.tbl d)) rest
  | (.alloc o, _) :: rest => Consistent (put m o .empty) rest
  | _ :: rest => Consistent m rest

/-- Operations under which the code keeps reads right: OIDs named to be committed have an
entry among the changes, an OID being allocated was not read before, nothing is discarded
and no two operations overlap. -/
def Guarded (s : Pool) : Op → Prop
  | .commit (.oids l) _ _ => ∀ o ∈ l, s.changes o ≠ none
  | .unlock l (.save _ _) => ∀ o ∈ l, s.changes o ≠ none
  | .unlock _ .discard => False
  | .alloc o => s.changes o = none ∧ s.cache o = none
  | .getBegin _ => False
  | .getEnd _ => False
  | _ => True

/-- Every operation of a series is guarded when it is reached. -/
def AllGuarded (s : Pool) : List Op → Prop
  | [] => True
  | op :: ops => Guarded s op ∧ AllGuarded (step s op).2 ops

/-- What reading an OID returns. -/
def current (s : Pool) (o : Oid) : Val := (get s o).1

/-- What reading it returns in a program that opens the pool afresh. -/
def afresh (s : Pool) (o : Oid) : Val := current (opened s.level s.nolock s.disk) o

end Kno.Pools
