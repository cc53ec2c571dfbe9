import Verif.Hashing.Model

/-!
# Which values hash properly
-/

namespace Kno.Hashing

open Kno.Compare

mutual
/-- Values without NaNs, complex numbers, NUL bytes in strings and schemaps.  Packets,
secrets, accumulating choices and opaque compounds are included; `isOpaque` says which
addresses hold an opaque compound.  The remaining conditions hold of every object. -/
def Tame (isOpaque : Nat → Bool) : V → Prop
  | .atom w => w < 2 ^ 64 ∧ w ≠ 2 ^ 63 + 2
  | .num n => n.Plain
  | .str b => 0 ∉ b
  | .packet _ => True
  | .secret _ => True
  | .pair a d => Tame isOpaque a ∧ Tame isOpaque d
  | .vec l => TameList isOpaque l
  | .choice l => TameList isOpaque l
  | .pre v => Tame isOpaque v
  | .qch v => Tame isOpaque v
  | .cmpd addr opaq tag l => opaq = isOpaque addr ∧ Tame isOpaque tag ∧ TameList isOpaque l
  | .smap ks vs => TameList isOpaque ks ∧ TameList isOpaque vs ∧ ks.length = vs.length
  | .schemap _ _ _ => False
  | .uuid _ => True
  | .numvec l => .nan ∉ l
  | .opq t _ => 0x84 ≤ t ∧ t ∉ modelledTypes

def TameList (isOpaque : Nat → Bool) : List V → Prop
  | [] => True
  | v :: vs => Tame isOpaque v ∧ TameList isOpaque vs
end

end Kno.Hashing
