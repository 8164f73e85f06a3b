import Verif.Spec.Place
import Verif.Spec.RoundTrip
import Verif.Proofs.Sizes
/-
Where parts of values are in their octets.
-/
namespace Oct
open Spec
set_option linter.unusedVariables false
variable {S : Ty → Nat}

/-- In `w`, the octets of `x` are behind `o` others; `w'` is that with others in their place. -/
def Sits (u : Ty) (x : u.Val) (o : Nat) (w : List UInt8) (w' : u.Val → List UInt8) : Prop :=
  ∃ A C, A.length = o ∧ w = A ++ (wire u x ++ C) ∧ ∀ y, w' y = A ++ (wire u y ++ C)

theorem Sits.inside {u : Ty} {x : u.Val} {o b : Nat} {w : List UInt8} {w' : u.Val → List UInt8} (h : Sits u x o w w')
    (B C : List UInt8) (hB : B.length = b) : Sits u x (b + o) (B ++ (w ++ C)) (fun y => B ++ (w' y ++ C)) := by
  obtain ⟨A, D, h1, h2, h3⟩ := h
  refine ⟨B ++ A, D ++ C, by rw [List.length_append, hB, h1], by simp [h2], fun y => by simp [h3]⟩

theorem Sits.behind {u : Ty} {x : u.Val} {o b : Nat} {w : List UInt8} {w' : u.Val → List UInt8} (h : Sits u x o w w')
    (B : List UInt8) (hB : B.length = b) : Sits u x (b + o) (B ++ w) (fun y => B ++ w' y) := by
  have := h.inside B [] hB
  simpa using this

theorem Sits.before {u : Ty} {x : u.Val} {o : Nat} {w : List UInt8} {w' : u.Val → List UInt8} (h : Sits u x o w w')
    (C : List UInt8) : Sits u x o (w ++ C) (fun y => w' y ++ C) := by
  have := h.inside [] C rfl
  simpa using this

theorem atIndex_some {α β : Type} {l : List α} {i : Nat} {f : α → Option β} {x : β} (h : atIndex l i f = some x) :
    ∃ a, l[i]? = some a ∧ f a = some x := by
  unfold atIndex at h
  split at h
  · cases h
  · exact ⟨_, ‹_›, h⟩

theorem fills_flatMap {t : Ty} : ∀ (l : List t.Val), (∀ y ∈ l, FillsMax S t y) →
    (l.flatMap (wire t)).length = l.length * t.maxSize S
  | [], _ => by simp
  | a :: l, h => by
    have h1 := h a List.mem_cons_self
    have h2 := fills_flatMap l fun y hy => h y (List.mem_cons_of_mem _ hy)
    unfold FillsMax at h1
    rw [List.flatMap_cons, List.length_append, h1, h2, List.length_cons, Nat.add_mul]
    omega

theorem sits_items {t u : Ty} {l : List t.Val} {i : Nat} {a : t.Val} {x : u.Val} {o : Nat} (f : u.Val → t.Val → t.Val)
    (ha : l[i]? = some a) (hl : ∀ y ∈ l.take i, FillsMax S t y)
    (h : Sits u x o (wire t a) (fun y => wire t (f y a))) :
    Sits u x (i * t.maxSize S + o) (l.flatMap (wire t)) (fun y => (l.modify i (f y)).flatMap (wire t)) := by
  obtain ⟨hi, ha⟩ := List.getElem?_eq_some_iff.mp ha
  have e1 : l = l.take i ++ a :: l.drop (i + 1) := by
    rw [← ha, List.getElem_cons_drop, List.take_append_drop]
  have e2 : ∀ y, l.modify i (f y) = l.take i ++ f y a :: l.drop (i + 1) := by
    intro y
    rw [List.modify_eq_take_cons_drop hi, ha]
  have hb := fills_flatMap (S := S) (l.take i) hl
  rw [List.length_take, Nat.min_eq_left (Nat.le_of_lt hi)] at hb
  have := h.inside ((l.take i).flatMap (wire t)) ((l.drop (i + 1)).flatMap (wire t)) hb
  have e3 : l.flatMap (wire t) = (l.take i).flatMap (wire t) ++ (wire t a ++ (l.drop (i + 1)).flatMap (wire t)) := by
    conv => lhs; rw [e1]
    rw [List.flatMap_append, List.flatMap_cons]
  have e4 : (fun y => (l.modify i (f y)).flatMap (wire t)) =
      fun y => (l.take i).flatMap (wire t) ++ (wire t (f y a) ++ (l.drop (i + 1)).flatMap (wire t)) := by
    funext y
    rw [e2, List.flatMap_append, List.flatMap_cons]
  rw [e3, e4]
  exact this

theorem sits_seq {t u : Ty} {l : List t.Val} {x : u.Val} {n o : Nat} (i : Nat) {f : u.Val → t.Val → t.Val}
    (h : Sits u x (n + o) (l.flatMap (wire t)) (fun y => (l.modify i (f y)).flatMap (wire t))) :
    Sits u x (2 + n + o) (leBytes 2 l.length ++ l.flatMap (wire t))
      (fun y => leBytes 2 (l.modify i (f y)).length ++ (l.modify i (f y)).flatMap (wire t)) := by
  have := h.behind (leBytes 2 l.length) (leBytes_length _ _)
  rw [← Nat.add_assoc] at this
  simp only [List.length_modify]
  exact this

theorem sits_here {u : Ty} {v x : u.Val} (h : v = x) : Sits u x 0 (wire u v) (fun y => wire u y) :=
  ⟨[], [], rfl, by rw [h, List.append_nil]; rfl, fun y => by rw [List.append_nil]; rfl⟩

mutual

theorem sits_part : {t u : Ty} → (p : Place t u) → (v : t.Val) → (x : u.Val) → part p v = some x →
    Steady S p v → Sits u x (p.offset S) (wire t v) (fun y => wire t (withPart p y v))
  | _, _, .here => fun v x h hs => sits_here (Option.some.inj h)
  | _, _, .wrap p => fun v x h hs => sits_part p v x h hs
  | .array t n, _, .array i p => fun v x h hs => by
    obtain ⟨a, ha, hx⟩ := atIndex_some h
    exact sits_items (fun y => withPart p y) ha hs.1 (sits_part p a x hx (hs.2 a ha))
  | .seq k t, _, .seq i p => fun v x h hs => by
    obtain ⟨a, ha, hx⟩ := atIndex_some h
    exact sits_seq i (sits_items (fun y => withPart p y) ha hs.1 (sits_part p a x hx (hs.2 a ha)))
  | .sizedSlice t n, _, .sizedSlice i p => fun v x h hs => by
    obtain ⟨a, ha, hx⟩ := atIndex_some h
    exact sits_seq i (sits_items (fun y => withPart p y) ha hs.1 (sits_part p a x hx (hs.2 a ha)))
  | .option t, _, .some p => fun v => match v with
    | none => fun x h => nomatch h
    | some v => fun x h hs => (sits_part p v x h hs).behind [1] rfl
  | .result t e, _, .ok p => fun v => match v with
    | .ok v => fun x h hs => (sits_part p v x h hs).behind [0] rfl
    | .err v => fun x h => nomatch h
  | .result t e, _, .err p => fun v => match v with
    | .ok v => fun x h => nomatch h
    | .err v => fun x h hs => (sits_part p v x h hs).behind [1] rfl
  | .bound t, _, .included p => fun v => match v with
    | .included v => fun x h hs => (sits_part p v x h hs).behind [0] rfl
    | .excluded v => fun x h => nomatch h
    | .unbounded => fun x h => nomatch h
  | .bound t, _, .excluded p => fun v => match v with
    | .included v => fun x h => nomatch h
    | .excluded v => fun x h hs => (sits_part p v x h hs).behind [1] rfl
    | .unbounded => fun x h => nomatch h
  | _, _, .start p => fun v x h hs => (sits_part p v.start x h hs).before _
  | _, _, .stop p => fun v x h hs => (sits_part p v.stop x h hs.2).behind _ hs.1
  | _, _, .first p => fun v x h hs => (sits_part p v.start x h hs).before _
  | _, _, .last p => fun v x h hs => (sits_part p v.stop x h hs.2).behind _ hs.1
  | _, _, .lock p => fun v x h hs => sits_part p v.val x h hs
  | _, _, .refCell p => fun v x h hs => sits_part p v.val x h hs
  | _, _, .tuple p => fun v x h hs => sits_partIn p v x h hs
  | _, _, .struct p => fun v x h hs => sits_partIn p v x h hs
  | .enum r vs, _, .enum p => fun v x h hs => sits_partOf r (explicitDiscs vs) p 0 v x h hs

theorem sits_partIn : {fs : Fields} → {u : Ty} → (p : PlaceIn fs u) → (v : fs.Val) → (x : u.Val) →
    partIn p v = some x → SteadyIn S p v →
    Sits u x (p.offset S) (wireFields fs v) (fun y => wireFields fs (withPartIn p y v))
  | _, _, .head p => fun v x h hs => (sits_part p v.1 x h hs).before _
  | _, _, .tail p => fun v x h hs => (sits_partIn p v.2 x h hs.2).behind _ hs.1

theorem sits_partOf (r : Repr) (ex : List (Option Nat)) : {vs : Variants} → {u : Ty} → (p : PlaceOf vs u) → (j : Nat) →
    (v : vs.Val) → (x : u.Val) → partOf p v = some x → SteadyOf S p v →
    Sits u x (r.bytes + p.offset S) (wireVariants r ex vs j v) (fun y => wireVariants r ex vs j (withPartOf p y v))
  | _, _, .this p => fun j v => match v with
    | .inl v => fun x h hs => (sits_partIn p v x h hs).behind _ (reprWire_length _ _)
    | .inr v => fun x h => nomatch h
  | _, _, .later p => fun j v => match v with
    | .inl v => fun x h => nomatch h
    | .inr v => fun x h hs => sits_partOf r ex p (j + 1) v x h hs

end

theorem fills_of_fixed {t : Ty} (h : fixedSize t ≠ none) (v : t.Val) : FillsMax S t v := by
  cases e : fixedSize t with
  | none => exact absurd e h
  | some n =>
    have := fixedSize_spec (sizeOf := S) t n e
    exact (this.1 v).trans this.2.symm

theorem fillsBefore_of {t : Ty} {l : List t.Val} {i : Nat} {f : t.Val → Prop} (h : i = 0 ∨ fixedSize t ≠ none)
    (hf : ∀ y, f y) : FillsBefore S l i f := by
  refine ⟨fun y hy => ?_, fun y _ => hf y⟩
  rcases h with h | h
  · subst h
    exact nomatch hy
  · exact fills_of_fixed h y

mutual

theorem steady_of : {t u : Ty} → (p : Place t u) → FixedTo p → (v : t.Val) → Steady S p v
  | _, _, .here => fun _ _ => trivial
  | _, _, .wrap p => fun h v => steady_of p h v
  | _, _, .array i p => fun h v => fillsBefore_of h.1 (steady_of p h.2)
  | _, _, .seq i p => fun h v => fillsBefore_of h.1 (steady_of p h.2)
  | _, _, .sizedSlice i p => fun h v => fillsBefore_of h.1 (steady_of p h.2)
  | _, _, .some p => fun h v => match v with
    | none => trivial
    | some v => steady_of p h v
  | _, _, .ok p => fun h v => match v with
    | .ok v => steady_of p h v
    | .err v => trivial
  | _, _, .err p => fun h v => match v with
    | .ok v => trivial
    | .err v => steady_of p h v
  | _, _, .included p => fun h v => match v with
    | .included v => steady_of p h v
    | .excluded v => trivial
    | .unbounded => trivial
  | _, _, .excluded p => fun h v => match v with
    | .included v => trivial
    | .excluded v => steady_of p h v
    | .unbounded => trivial
  | _, _, .start p => fun h v => steady_of p h v.start
  | _, _, .stop p => fun h v => ⟨fills_of_fixed h.1 _, steady_of p h.2 v.stop⟩
  | _, _, .first p => fun h v => steady_of p h v.start
  | _, _, .last p => fun h v => ⟨fills_of_fixed h.1 _, steady_of p h.2 v.stop⟩
  | _, _, .lock p => fun h v => steady_of p h v.val
  | _, _, .refCell p => fun h v => steady_of p h v.val
  | _, _, .tuple p => fun h v => steadyIn_of p h v
  | _, _, .struct p => fun h v => steadyIn_of p h v
  | _, _, .enum p => fun h v => steadyOf_of p h v

theorem steadyIn_of : {fs : Fields} → {u : Ty} → (p : PlaceIn fs u) → FixedToIn p → (v : fs.Val) → SteadyIn S p v
  | _, _, .head p => fun h v => steady_of p h v.1
  | _, _, .tail p => fun h v => ⟨fills_of_fixed h.1 _, steadyIn_of p h.2 v.2⟩

theorem steadyOf_of : {vs : Variants} → {u : Ty} → (p : PlaceOf vs u) → FixedToOf p → (v : vs.Val) → SteadyOf S p v
  | _, _, .this p => fun h v => match v with
    | .inl v => steadyIn_of p h v
    | .inr v => trivial
  | _, _, .later p => fun h v => match v with
    | .inl v => trivial
    | .inr v => steadyOf_of p h v

end

/-- There is something at the place, it has the property, and another with the property can be put there. -/
def Swaps {α β : Type} (P : α → Prop) (Q : β → Prop) (get : α → Option β) (set : β → α → α) : Prop :=
  ∀ v x, get v = some x →
    (P v → Q x) ∧ ∀ y, get (set y v) = some y ∧ (P v → Q y → P (set y v))

theorem swaps_items {α β : Type} {P : α → Prop} {Q : β → Prop} {get : α → Option β} {set : β → α → α}
    (h : Swaps P Q get set) (i : Nat) :
    Swaps (fun l : List α => ∀ y ∈ l, P y) Q (fun l => atIndex l i get) (fun y l => l.modify i (set y)) := by
  intro l x hx
  obtain ⟨a, ha, hx⟩ := atIndex_some hx
  obtain ⟨h1, h2⟩ := h a x hx
  obtain ⟨hi, ha'⟩ := List.getElem?_eq_some_iff.mp ha
  refine ⟨fun hp => h1 (hp a (ha' ▸ List.getElem_mem hi)), fun y => ⟨?_, fun hp hq z hz => ?_⟩⟩
  · show atIndex (l.modify i (set y)) i get = some y
    unfold atIndex
    rw [List.getElem?_modify_eq, ha]
    exact (h2 y).1
  · replace hz : z ∈ l.modify i (set y) := hz
    rw [List.modify_eq_take_cons_drop hi, ha'] at hz
    rcases List.mem_append.mp hz with hz | hz
    · exact hp z (List.mem_of_mem_take hz)
    · rcases List.mem_cons.mp hz with rfl | hz
      · exact (h2 y).2 (hp a (ha' ▸ List.getElem_mem hi)) hq
      · exact hp z (List.mem_of_mem_drop hz)

mutual

theorem encodable_swaps : {t u : Ty} → (p : Place t u) →
    Swaps (Encodable t) (Encodable u) (part p) (withPart p)
  | _, _, .here => fun v x h => ⟨fun hp => Option.some.inj h ▸ hp, fun y => ⟨rfl, fun _ hq => hq⟩⟩
  | _, _, .wrap p => fun v x h => encodable_swaps p v x h
  | _, _, .array i p => fun v x h => swaps_items (encodable_swaps p) i v.val x h
  | .seq k t, _, .seq i p => fun v x h =>
    have ⟨h1, h2⟩ := swaps_items (encodable_swaps p) i v x h
    ⟨fun hp => h1 hp.2, fun y => ⟨(h2 y).1, fun hp hq =>
      ⟨Nat.le_trans (Nat.le_of_eq (List.length_modify _ _ _)) hp.1, (h2 y).2 hp.2 hq⟩⟩⟩
  | _, _, .sizedSlice i p => fun v x h =>
    have ⟨h1, h2⟩ := swaps_items (encodable_swaps p) i v.val x h
    ⟨fun hp => h1 hp.2, fun y => ⟨(h2 y).1, fun hp hq =>
      ⟨Nat.le_trans (Nat.le_of_eq (List.length_modify _ _ _)) hp.1, (h2 y).2 hp.2 hq⟩⟩⟩
  | _, _, .some p => fun v => match v with
    | none => fun x h => nomatch h
    | some v => fun x h => encodable_swaps p v x h
  | _, _, .ok p => fun v => match v with
    | .ok v => fun x h => encodable_swaps p v x h
    | .err v => fun x h => nomatch h
  | _, _, .err p => fun v => match v with
    | .ok v => fun x h => nomatch h
    | .err v => fun x h => encodable_swaps p v x h
  | _, _, .included p => fun v => match v with
    | .included v => fun x h => encodable_swaps p v x h
    | .excluded v => fun x h => nomatch h
    | .unbounded => fun x h => nomatch h
  | _, _, .excluded p => fun v => match v with
    | .included v => fun x h => nomatch h
    | .excluded v => fun x h => encodable_swaps p v x h
    | .unbounded => fun x h => nomatch h
  | _, _, .start p => fun v x h =>
    have ⟨h1, h2⟩ := encodable_swaps p v.start x h
    ⟨fun hp => h1 hp.1, fun y => ⟨(h2 y).1, fun hp hq => ⟨(h2 y).2 hp.1 hq, hp.2⟩⟩⟩
  | _, _, .stop p => fun v x h =>
    have ⟨h1, h2⟩ := encodable_swaps p v.stop x h
    ⟨fun hp => h1 hp.2, fun y => ⟨(h2 y).1, fun hp hq => ⟨hp.1, (h2 y).2 hp.2 hq⟩⟩⟩
  | _, _, .first p => fun v x h =>
    have ⟨h1, h2⟩ := encodable_swaps p v.start x h
    ⟨fun hp => h1 hp.1, fun y => ⟨(h2 y).1, fun hp hq => ⟨(h2 y).2 hp.1 hq, hp.2⟩⟩⟩
  | _, _, .last p => fun v x h =>
    have ⟨h1, h2⟩ := encodable_swaps p v.stop x h
    ⟨fun hp => h1 hp.2, fun y => ⟨(h2 y).1, fun hp hq => ⟨hp.1, (h2 y).2 hp.2 hq⟩⟩⟩
  | _, _, .lock p => fun v x h => encodable_swaps p v.val x h
  | _, _, .refCell p => fun v x h =>
    have ⟨h1, h2⟩ := encodable_swaps p v.val x h
    ⟨fun hp => h1 hp.2, fun y => ⟨(h2 y).1, fun hp hq => ⟨hp.1, (h2 y).2 hp.2 hq⟩⟩⟩
  | _, _, .tuple p => fun v x h => encodable_swapsIn p v x h
  | _, _, .struct p => fun v x h => encodable_swapsIn p v x h
  | .enum r vs, _, .enum p => fun v x h => encodable_swapsOf r (explicitDiscs vs) p 0 v x h

theorem encodable_swapsIn : {fs : Fields} → {u : Ty} → (p : PlaceIn fs u) →
    Swaps (EncodableFields fs) (Encodable u) (partIn p) (withPartIn p)
  | _, _, .head p => fun v x h =>
    have ⟨h1, h2⟩ := encodable_swaps p v.1 x h
    ⟨fun hp => h1 hp.1, fun y => ⟨(h2 y).1, fun hp hq => ⟨(h2 y).2 hp.1 hq, hp.2⟩⟩⟩
  | _, _, .tail p => fun v x h =>
    have ⟨h1, h2⟩ := encodable_swapsIn p v.2 x h
    ⟨fun hp => h1 hp.2, fun y => ⟨(h2 y).1, fun hp hq => ⟨hp.1, (h2 y).2 hp.2 hq⟩⟩⟩

theorem encodable_swapsOf (r : Repr) (ex : List (Option Nat)) : {vs : Variants} → {u : Ty} → (p : PlaceOf vs u) →
    (j : Nat) → Swaps (EncodableVariants r ex vs j) (Encodable u) (partOf p) (withPartOf p)
  | _, _, .this p => fun j v => match v with
    | .inl v => fun x h =>
      have ⟨h1, h2⟩ := encodable_swapsIn p v x h
      ⟨fun hp => h1 hp.2, fun y => ⟨(h2 y).1, fun hp hq => ⟨hp.1, (h2 y).2 hp.2 hq⟩⟩⟩
    | .inr v => fun x h => nomatch h
  | _, _, .later p => fun j v => match v with
    | .inl v => fun x h => nomatch h
    | .inr v => fun x h => encodable_swapsOf r ex p (j + 1) v x h

end

mutual

theorem supported_swaps : {t u : Ty} → (p : Place t u) →
    Swaps (Supported t) (Supported u) (part p) (withPart p)
  | _, _, .here => fun v x h => ⟨fun hp => Option.some.inj h ▸ hp, fun y => ⟨rfl, fun _ hq => hq⟩⟩
  | _, _, .wrap p => fun v x h => supported_swaps p v x h
  | _, _, .array i p => fun v x h => swaps_items (supported_swaps p) i v.val x h
  | _, _, .seq i p => fun v x h => swaps_items (supported_swaps p) i v x h
  | _, _, .sizedSlice i p => fun v x h =>
    have ⟨h1, h2⟩ := swaps_items (supported_swaps p) i v.val x h
    ⟨fun hp => h1 hp.2, fun y => ⟨(h2 y).1, fun hp hq =>
      ⟨hp.1.imp_left fun e => (List.length_modify _ _ _).trans e, (h2 y).2 hp.2 hq⟩⟩⟩
  | _, _, .some p => fun v => match v with
    | none => fun x h => nomatch h
    | some v => fun x h => supported_swaps p v x h
  | _, _, .ok p => fun v => match v with
    | .ok v => fun x h => supported_swaps p v x h
    | .err v => fun x h => nomatch h
  | _, _, .err p => fun v => match v with
    | .ok v => fun x h => nomatch h
    | .err v => fun x h => supported_swaps p v x h
  | _, _, .included p => fun v => match v with
    | .included v => fun x h => supported_swaps p v x h
    | .excluded v => fun x h => nomatch h
    | .unbounded => fun x h => nomatch h
  | _, _, .excluded p => fun v => match v with
    | .included v => fun x h => nomatch h
    | .excluded v => fun x h => supported_swaps p v x h
    | .unbounded => fun x h => nomatch h
  | _, _, .start p => fun v x h =>
    have ⟨h1, h2⟩ := supported_swaps p v.start x h
    ⟨fun hp => h1 hp.1, fun y => ⟨(h2 y).1, fun hp hq => ⟨(h2 y).2 hp.1 hq, hp.2⟩⟩⟩
  | _, _, .stop p => fun v x h =>
    have ⟨h1, h2⟩ := supported_swaps p v.stop x h
    ⟨fun hp => h1 hp.2, fun y => ⟨(h2 y).1, fun hp hq => ⟨hp.1, (h2 y).2 hp.2 hq⟩⟩⟩
  | _, _, .first p => fun v x h =>
    have ⟨h1, h2⟩ := supported_swaps p v.start x h
    ⟨fun hp => h1 hp.1, fun y => ⟨(h2 y).1, fun hp hq => ⟨(h2 y).2 hp.1 hq, hp.2⟩⟩⟩
  | _, _, .last p => fun v x h =>
    have ⟨h1, h2⟩ := supported_swaps p v.stop x h
    ⟨fun hp => h1 hp.2, fun y => ⟨(h2 y).1, fun hp hq => ⟨hp.1, (h2 y).2 hp.2 hq⟩⟩⟩
  | _, _, .lock p => fun v x h => supported_swaps p v.val x h
  | _, _, .refCell p => fun v x h => supported_swaps p v.val x h
  | _, _, .tuple p => fun v x h => supported_swapsIn p v x h
  | _, _, .struct p => fun v x h => supported_swapsIn p v x h
  | _, _, .enum p => fun v x h => supported_swapsOf p v x h

theorem supported_swapsIn : {fs : Fields} → {u : Ty} → (p : PlaceIn fs u) →
    Swaps (SupportedFields fs) (Supported u) (partIn p) (withPartIn p)
  | _, _, .head p => fun v x h =>
    have ⟨h1, h2⟩ := supported_swaps p v.1 x h
    ⟨fun hp => h1 hp.1, fun y => ⟨(h2 y).1, fun hp hq => ⟨(h2 y).2 hp.1 hq, hp.2⟩⟩⟩
  | _, _, .tail p => fun v x h =>
    have ⟨h1, h2⟩ := supported_swapsIn p v.2 x h
    ⟨fun hp => h1 hp.2, fun y => ⟨(h2 y).1, fun hp hq => ⟨hp.1, (h2 y).2 hp.2 hq⟩⟩⟩

theorem supported_swapsOf : {vs : Variants} → {u : Ty} → (p : PlaceOf vs u) →
    Swaps (SupportedVariants vs) (Supported u) (partOf p) (withPartOf p)
  | _, _, .this p => fun v => match v with
    | .inl v => fun x h => supported_swapsIn p v x h
    | .inr v => fun x h => nomatch h
  | _, _, .later p => fun v => match v with
    | .inl v => fun x h => nomatch h
    | .inr v => fun x h => supported_swapsOf p v x h

end

end Oct
