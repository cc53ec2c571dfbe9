import Verif.Tables.SlotProps
import Verif.Tables.HashProps
import Verif.Tables.HashsetProps
import Verif.Tables.EqProps
import Verif.Tables.DispatchProps

/-!
# Tables: all properties
-/
