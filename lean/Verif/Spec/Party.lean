import Verif.Model.Party
import Verif.Spec.RoundTrip
import Verif.Spec.Format
/- What the parties of the documented protocol may rely on. -/
namespace Oct.Spec

/-- The requests that clients send in a schedule. -/
def asks {req : Ty} : List (NetStep req) → List req.Val
  | [] => []
  | .ask _ v :: ss => v :: asks ss
  | _ :: ss => asks ss

/-- A step in which nobody but the parties sends, and requests can be encoded and come back. -/
def Honest {req : Ty} : NetStep req → Prop
  | .ask _ v => Encodable req v ∧ Supported req v
  | .forge _ => False
  | _ => True

/-- What the parties have seen is what they should: nothing but the requests sent, and the handler's
answers to them. -/
structure Faithful {req resp : Ty} (f : req.Val → resp.Val) (sent : List req.Val)
    (n : Net req resp) : Prop where
  asked : ∀ r ∈ n.asked, r = .ok ()
  heard : ∀ r ∈ n.heard, ∃ v ∈ sent, r = .ok (carried req v)
  said : ∀ r ∈ n.said, r = .ok ()
  got : ∀ r ∈ n.got, ∃ v ∈ sent, r.2 = .ok (carried resp (f (carried req v)))

end Oct.Spec
