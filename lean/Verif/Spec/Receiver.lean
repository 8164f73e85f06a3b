import Verif.Spec.Stops
import Verif.Model.Receiver
/-
What octets say to somebody who expects certain values, by the format alone.
-/
namespace Oct.Spec

/-- Octets that are values as expected, one after the other, and what is expected after them. -/
inductive Says : Talk → List Byte → List (Sigma Ty.Val) → Talk → Prop
  | nil (k : Talk) : Says k [] [] k
  | cons {t : Ty} {k : t.Val → Talk} {b bs : List Byte} {v : t.Val} {vs : List (Sigma Ty.Val)} {k' : Talk} :
    Accepts t b v → Says (k v) bs vs k' → Says (.next t k) (b ++ bs) (⟨t, v⟩ :: vs) k'

/-- The next value expected is not at the beginning of these octets yet, and nothing is that would tell that it
never will be. -/
def Awaits : Talk → List Byte → Prop
  | .done, _ => True
  | .next t _, bs => ∀ b, b <+: bs → (∀ v, ¬ Accepts t b v) ∧ (∀ e, ¬ Rejects t b e) ∧ ∀ s, ¬ Stops t b s

/-- These octets begin with something else than the value expected. -/
def Spoils : Talk → List Byte → Res DecErr Empty → Prop
  | .done, _, _ => False
  | .next t _, bs, f => ∃ b, b <+: bs ∧
    ((∃ e, Rejects t b e ∧ f = .err e) ∨ ∃ s, Stops t b s ∧ f = s.res)

/-- All types expected are ones that rustc accepts. -/
def TalkWF : Talk → Prop
  | .done => True
  | .next t k => t.WF ∧ ∀ v, TalkWF (k v)

/-- Where somebody is who has got these octets: some of them are values as expected, and the rest is not, or not
yet. -/
def Tells (talk : Talk) (bs : List Byte) (r : Receiver) : Prop :=
  ∃ w, bs = w ++ r.buf ∧ Says talk w r.got r.talk ∧
    match r.failed with
    | none => Awaits r.talk r.buf
    | some f => Spoils r.talk r.buf f

/-- Expecting values of these types. -/
def expecting : List Ty → Talk
  | [] => .done
  | t :: ts => .next t fun _ => expecting ts

end Oct.Spec
