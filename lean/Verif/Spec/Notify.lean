import Verif.Model.Notify
import Verif.Spec.Rpc
/-!
# Specification vocabulary for subscriptions (C83)
-/
namespace Verif.Spec
open Notify

variable {T : Type}

/-- What was written to stream k. -/
def written (s : Hub T) (k : Nat) : List T := sentTo k (s.chan (s.edge k))

/-- The thread of the stream takes this step. -/
def ownStep (k : Nat) : Event T → Bool
  | .test j => j == k
  | .read j => j == k
  | _ => false

/-- The event ends the subscription of client c. -/
def Ends (c : Nat) : Event T → Prop
  | .endSub d => d = c
  | .clear => True
  | _ => False

/-- The event subscribes client c. -/
def Subscribes (c : Nat) : Event T → Prop
  | .subscribe _ d _ => d = c
  | _ => False

/-- The event may wake stream k: an addition to its cache, `escape_wait` of its cache, or a spurious wake-up. -/
def Rouses (s : Hub T) (k : Nat) : Event T → Prop
  | .add e _ _ => e = s.edge k
  | .escape e _ => e = s.edge k
  | .spurious j => j = k
  | _ => False

end Verif.Spec
