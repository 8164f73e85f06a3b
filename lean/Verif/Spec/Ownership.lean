import Verif.Model.Ownership
/-
What it means that items are neither dropped twice nor leaked.
-/
namespace Oct.Spec

/-- The items that a thing owns: those in the initialised cells of a container, whether or not its
length covers them. -/
def owned : Holder → List Nat
  | .item x => [x]
  | .vec l => l
  | .slice s => s.buf.filterMap id
  | .iter it => it.buf.filterMap id

/-- The items that the caller still owns through something. -/
def World.owned (w : World) : List Nat := w.held.flatMap Spec.owned

/-- The operations other than `From<[T; N]>` and `nth`. -/
def Careful : OwnStep → Prop
  | .op _ .fromArray => False
  | .op _ (.nth _) => False
  | _ => True

/-- The items that a step leaves without owner although their destructors have not run. -/
def lostBy (w : World) : OwnStep → List Nat
  | .decodeFail k => List.range' w.fresh k
  | .op h .drop =>
    match w.held[h]? with
    | some (.slice s) => s.buf.filterMap id
    | some (.iter it) => it.buf.filterMap id
    | _ => []
  | .op h .intoVec =>
    match w.held[h]? with
    | some (.slice s) => (s.buf.drop s.len).filterMap id
    | _ => []
  | _ => []

/-- The items that a history leaves without owner. -/
def leaks (w : World) : List OwnStep → List Nat
  | [] => []
  | s :: ss =>
    match w.step s with
    | .ok w' => lostBy w s ++ leaks w' ss
    | _ => []

/-- Nothing is owned twice, nothing owned was dropped and nothing was dropped twice. -/
def Sound (w : World) : Prop := (World.owned w ++ w.dropped).Nodup

end Oct.Spec
