import Verif.Model.Guards
import Verif.Spec.Locks
/- Programs that take locks in order, and programs that take an outer lock first. -/
namespace Oct.Spec
open Oct

/-- The thread has nothing left to do. -/
def Done (a : Agent) : Prop := a.call = .idle ∧ a.script = []

/-- Somebody has something to do, but nobody can make a step. -/
def GuardDeadlock (joins : Guards → Nat → Bool) (s : Guards) : Prop :=
  (∃ a ∈ s.agents, ¬Done a) ∧ ∀ k, s.step joins k = none

/-- The program, which holds guards of the locks `h`, takes each lock while it holds locks of a higher
rank only, drops all its guards, and puts into a lock only what has locks of a lower rank. `encode` counts
as taking the locks in the value. -/
def Orderly (rank : Nat → Nat) : List Nat → List Cmd → Prop
  | h, [] => h = []
  | h, .guard r _ :: cs => (∀ x ∈ h, rank r < rank x) ∧ Orderly rank (r :: h) cs
  | h, .drop r :: cs => Orderly rank (h.erase r) cs
  | h, .set r c :: cs => Below rank (rank r) c ∧ Orderly rank h cs
  | h, .encode c :: cs => (∀ x ∈ h, Below rank (rank x) c) ∧ Orderly rank h cs
  | h, .through r :: cs => (∀ x ∈ h, rank r ≤ rank x) ∧ Orderly rank h cs

/-- No program has begun, each takes locks in the order of their ranks, and locks contain only locks of a
lower rank. -/
def LockOrder (rank : Nat → Nat) (s : Guards) : Prop :=
  (∀ a ∈ s.agents, ∃ script o, a = Agent.start script o ∧ Orderly rank [] script) ∧
  ∀ r, Below rank (rank r) (s.content r)

/-- Nothing that a program puts into a lock has more than `b` pieces. -/
def ShortSets (b : Nat) (cs : List Cmd) : Prop := ∀ r c, Cmd.set r c ∈ cs → c.length ≤ b

/-- The pieces only encode locks of `S`. -/
def LocksIn (S : Nat → Prop) (c : List Piece) : Prop := ∀ r g, Piece.lock r g ∈ c → S r

/-- The program, which holds the guards `h`, changes the lock `l` and the locks `S` only while it holds a
guard of `l` that excludes others, and puts into them only locks of `S`. -/
def Covers (kind : Nat → LockKind) (l : Nat) (S : Nat → Prop) : List (Nat × Bool) → List Cmd → Prop
  | _, [] => True
  | h, .guard r w :: cs => Covers kind l S ((r, w) :: h) cs
  | h, .drop r :: cs => Covers kind l S (dropGuard r h) cs
  | h, .set r c :: cs => (r = l ∨ S r → (∃ g ∈ h, g.1 = l ∧ alone? kind g = true) ∧ LocksIn S c) ∧
    Covers kind l S h cs
  | h, .encode _ :: cs => Covers kind l S h cs
  | h, .through _ :: cs => Covers kind l S h cs

/-- No program has begun, and all of them change the lock `l` and the locks `S` inside it only while they
have a guard of `l` that excludes others. -/
def CoveredBy (l : Nat) (S : Nat → Prop) (s : Guards) : Prop :=
  (∀ a ∈ s.agents, ∃ script o, a = Agent.start script o ∧ Covers s.kind l S [] script) ∧
  ∀ r, r = l ∨ S r → LocksIn S (s.content r)

/-- The thread is about to end its call of `encode` with the outcome `r`. -/
def Returns (a : Agent) (r : Res EncErr Unit) : Prop :=
  a.call = .encoding [] [] ∧ r = .ok () ∨ a.call = .failing r []

end Oct.Spec
