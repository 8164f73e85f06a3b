import Verif.Spec.Taken
import Verif.Proofs.Longest
import Verif.Proofs.MaxSize
import Verif.Proofs.Stops
/- How many octets decoding takes at most. -/
namespace Oct
open Spec
set_option linter.unusedVariables false

/-- The longest octets that stand for something. -/
abbrev MostTaken {α : Type} (A : List Byte → α → Prop) (n : Option Nat) : Prop :=
  IsLongest (fun p : List Byte × α => A p.1 p.2) Prod.fst n

namespace MostTaken
variable {α β γ : Type} {A : List Byte → α → Prop} {B : List Byte → β → Prop} {C : List Byte → γ → Prop}

theorem leaf {n : Nat} (bs : List Byte) (a : α) (h : A bs a) (hl : bs.length = n)
    (hm : ∀ bs a, A bs a → bs.length ≤ n) : MostTaken A (some n) :=
  ⟨⟨(bs, a), h, hl⟩, fun p hp => hm _ _ hp⟩

theorem le {n : Option Nat} (h : MostTaken A n) {bs : List Byte} {a : α} (hA : A bs a) :
    ∃ l, n = some l ∧ bs.length ≤ l := by
  cases n with
  | none => exact (h (bs, a) hA).elim
  | some l => exact ⟨l, rfl, h.2 (bs, a) hA⟩

theorem each_le {n : Nat} (h : ∀ bs a, A bs a → bs.length ≤ n) {bs : List Byte} {l : List α}
    (hE : Each A bs l) : bs.length ≤ n * l.length := by
  induction hE with
  | nil => simp
  | cons hA _ ih =>
    have := h _ _ hA
    rw [List.length_append, List.length_cons, Nat.mul_succ]
    omega

theorem each_replicate {bs : List Byte} {a : α} (h : A bs a) : (k : Nat) →
    ∃ cs, Each A cs (List.replicate k a) ∧ cs.length = bs.length * k
  | 0 => ⟨[], .nil, rfl⟩
  | k + 1 => by
    obtain ⟨cs, hc, hl⟩ := each_replicate h k
    refine ⟨bs ++ cs, .cons h hc, ?_⟩
    rw [List.length_append, hl, Nat.mul_succ]
    omega

theorem items {n : Option Nat} (h : MostTaken A n) (k : Nat) :
    MostTaken (fun bs (l : Items α k) => Each A bs l.val) (if k = 0 then some 0 else n.map (· * k)) := by
  by_cases h0 : k = 0
  · rw [if_pos h0]
    subst h0
    refine .leaf [] (⟨[], rfl⟩ : Items α 0) .nil rfl ?_
    rintro bs ⟨l, hl⟩ (hE : Each A bs l)
    match l, hl, hE with
    | [], _, .nil => exact Nat.le_refl _
  · rw [if_neg h0]
    cases n with
    | none =>
      rintro ⟨bs, l, hl⟩ (hE : Each A bs l)
      cases hE with
      | nil => exact h0 hl.symm
      | cons hA _ => exact h (_, _) hA
    | some n =>
      obtain ⟨⟨⟨bs, a⟩, hA, hn⟩, hm⟩ := h
      obtain ⟨cs, hc, hl⟩ := each_replicate (show A bs a from hA) k
      refine .leaf cs (⟨List.replicate k a, List.length_replicate⟩ : Items α k) hc ?_ ?_
      · rw [hl, show bs.length = n from hn]
      · rintro bs ⟨l, hl⟩ (hE : Each A bs l)
        rw [← hl]
        exact each_le (fun b a h => hm (b, a) h) hE

theorem pair {n m : Option Nat} (h : MostTaken A n) (h' : MostTaken B m) :
    MostTaken (fun bs (p : α × β) => Both A B bs p.1 p.2) (both n m) := by
  refine IsLongest.prod h h' (fun p q => (p.1 ++ q.1, p.2, q.2))
    (fun p q hp hq => ⟨⟨p.1, q.1, rfl, hp, hq⟩, List.length_append⟩) ?_
  rintro ⟨bs, a, b⟩ ⟨b1, b2, e, h1, h2⟩
  exact ⟨(b1, a), (b2, b), h1, h2, by simp only at e ⊢; rw [e, List.length_append]⟩

/-- The same octets for something else, with some in front. -/
theorem image {n : Option Nat} (h : MostTaken A n) (k : Nat) (f : α → β)
    (g : ∀ bs b, B bs b → ∃ cs a, A cs a ∧ bs.length = k + cs.length)
    (hf : ∀ bs a, A bs a → ∃ cs, cs.length = k + bs.length ∧ B cs (f a)) :
    MostTaken B (n.map (k + ·)) := by
  cases n with
  | none =>
    rintro ⟨bs, b⟩ hb
    obtain ⟨cs, a, hA, _⟩ := g bs b hb
    exact h (cs, a) hA
  | some n =>
    obtain ⟨⟨⟨bs, a⟩, hA, hn⟩, hm⟩ := h
    obtain ⟨cs, hl, hB⟩ := hf bs a hA
    refine .leaf cs (f a) hB ?_ ?_
    · rw [hl, show bs.length = n from hn]
    · intro bs b hb
      obtain ⟨cs, a, hA, e⟩ := g bs b hb
      have : cs.length ≤ n := hm (cs, a) hA
      show _ ≤ k + n
      omega

theorem image0 {n : Option Nat} (h : MostTaken A n) (f : α → β)
    (g : ∀ bs b, B bs b → ∃ a, A bs a) (hf : ∀ bs a, A bs a → B bs (f a)) : MostTaken B n := by
  have := h.image (B := B) 0 f (fun bs b hb => let ⟨a, ha⟩ := g bs b hb; ⟨bs, a, ha, (Nat.zero_add _).symm⟩)
    (fun bs a ha => ⟨bs, (Nat.zero_add _).symm, hf bs a ha⟩)
  simpa only [Nat.zero_add, Option.map_id'] using this

/-- Octets for either. -/
theorem sum {n m : Option Nat} (h : MostTaken A n) (h' : MostTaken B m) (f : α → γ) (f' : β → γ)
    (hf : ∀ bs a, A bs a → C bs (f a)) (hf' : ∀ bs b, B bs b → C bs (f' b))
    (g : ∀ bs c, C bs c → (∃ a, A bs a) ∨ ∃ b, B bs b) : MostTaken C (larger n m) := by
  refine IsLongest.sum h h' (fun p => (p.1, f p.2)) (fun p => (p.1, f' p.2))
    (fun p hp => ⟨hf _ _ hp, rfl⟩) (fun p hp => ⟨hf' _ _ hp, rfl⟩) ?_
  rintro ⟨bs, c⟩ hc
  rcases g bs c hc with ⟨a, ha⟩ | ⟨b, hb⟩
  · exact .inl ⟨(bs, a), ha, rfl⟩
  · exact .inr ⟨(bs, b), hb, rfl⟩

/-- One octet, or one in front of others. -/
theorem tagged {n : Option Nat} (h : MostTaken A n) (f : α → β) (b : β) (x y : Byte) (hb : B [x] b)
    (hf : ∀ bs a, A bs a → B (y :: bs) (f a))
    (g : ∀ bs b, B bs b → bs.length = 1 ∨ ∃ z cs a, bs = z :: cs ∧ A cs a) :
    MostTaken B (some (1 + n.getD 0)) := by
  cases n with
  | none =>
    refine .leaf [x] b hb rfl fun bs b hb => ?_
    rcases g bs b hb with h1 | ⟨z, cs, a, _, ha⟩
    · exact Nat.le_of_eq h1
    · exact (h (cs, a) ha).elim
  | some n =>
    obtain ⟨⟨⟨bs, a⟩, hA, hn⟩, hm⟩ := h
    refine .leaf (y :: bs) (f a) (hf bs a hA) ?_ fun bs b hb => ?_
    · rw [List.length_cons, show bs.length = n from hn]
      exact Nat.add_comm _ _
    · show _ ≤ 1 + n
      rcases g bs b hb with h1 | ⟨z, cs, a, rfl, ha⟩
      · omega
      · have : cs.length ≤ n := hm (cs, a) ha
        rw [List.length_cons]
        omega

end MostTaken

mutual

theorem taken_spec : (t : Ty) → t.HasSized → MostTaken (Accepts t) (mostTaken t)
  | .num k, _ => .leaf _ (show BitVec (8 * k.bytes) from 0) rfl (leBytes_length _ _)
      fun bs v h => Nat.le_of_eq (by rw [show bs = _ from h, leBytes_length])
  | .bool, _ => .leaf [0] false ⟨0, rfl, by decide⟩ rfl fun bs v ⟨b, h, _⟩ => by rw [h]; exact Nat.le_refl _
  | .char, _ => .leaf _ 'a' rfl (leBytes_length _ _)
      fun bs v h => Nat.le_of_eq (by rw [show bs = _ from h, leBytes_length])
  | .usize, _ => .leaf _ (show Nat from 0) ⟨Nat.zero_le _, rfl⟩ (leBytes_length _ _)
      fun bs v h => Nat.le_of_eq ((congrArg List.length h.2).trans (leBytes_length 2 _))
  | .isize, _ => .leaf _ (show Int from 0) ⟨by decide, rfl⟩ (leBytesInt_length _ _)
      fun bs v h => Nat.le_of_eq ((congrArg List.length h.2).trans (leBytesInt_length 2 _))
  | .nonZero r, _ => by
    have h : (r.InRange 1 ∧ (1 : Int) ≠ 0) ∧ ReprEncodable r 1 := by
      cases r with
      | int k => cases k <;> decide
      | usize => decide
      | isize => decide
    exact .leaf _ (⟨1, h.1⟩ : {x : Int // r.InRange x ∧ x ≠ 0}) ⟨h.2, rfl⟩ (reprWire_length _ _)
      fun bs v h => Nat.le_of_eq (by rw [h.2, reprWire_length])
  | .unit _, _ => .leaf [] () rfl rfl fun bs v h => Nat.le_of_eq (by rw [show bs = [] from h]; rfl)
  | .infallible, _ => fun p => nomatch p.2
  | .wrap _ t, h => taken_spec t h
  | .array t n, h => (taken_spec t h).items n
  | .seq _ _, h => nomatch h
  | .hashMap _ _, h => nomatch h
  | .hashSet _, h => nomatch h
  | .option t, h => (taken_spec t h).tagged (B := Accepts (.option t)) (fun v => (some v : Option t.Val))
      (none : Option t.Val) 0 1 rfl (fun bs v hv => ⟨1, bs, by decide, rfl, hv⟩) fun bs v hv => by
        match v, hv with
        | none, hv => exact .inl (by rw [show bs = [0] from hv]; rfl)
        | some v, ⟨b, r, _, e, hv⟩ => exact .inr ⟨b, r, v, e, hv⟩
  | .result t e, h => by
    refine MostTaken.image (A := fun bs (v : ResultVal t.Val e.Val) => match v with
        | .ok v => Accepts t bs v
        | .err v => Accepts e bs v)
      (MostTaken.sum (taken_spec t h.1) (taken_spec e h.2) ResultVal.ok ResultVal.err (fun _ _ h => h)
        (fun _ _ h => h) ?_) 1 (fun v => v) ?_ ?_
    · intro bs c hc
      match c, hc with
      | .ok v, hc => exact .inl ⟨v, hc⟩
      | .err v, hc => exact .inr ⟨v, hc⟩
    · intro bs v hv
      match v, hv with
      | .ok v, ⟨r, e, hv⟩ => exact ⟨r, .ok v, hv, by rw [e, List.length_cons, Nat.add_comm]⟩
      | .err v, ⟨b, r, _, e, hv⟩ => exact ⟨r, .err v, hv, by rw [e, List.length_cons, Nat.add_comm]⟩
    · intro bs v hv
      match v, hv with
      | .ok v, hv => exact ⟨0 :: bs, by rw [List.length_cons, Nat.add_comm], bs, rfl, hv⟩
      | .err v, hv => exact ⟨1 :: bs, by rw [List.length_cons, Nat.add_comm], 1, bs, by decide, rfl, hv⟩
  | .bound t, h => (taken_spec t h).tagged (B := Accepts (.bound t)) (fun v => (.included v : BoundVal t.Val))
      (.unbounded : BoundVal t.Val) 2 0 rfl (fun bs v hv => ⟨bs, rfl, hv⟩) fun bs v hv => by
        match v, hv with
        | .unbounded, hv => exact .inl (by rw [show bs = [2] from hv]; rfl)
        | .included v, ⟨r, e, hv⟩ => exact .inr ⟨0, r, v, e, hv⟩
        | .excluded v, ⟨r, e, hv⟩ => exact .inr ⟨1, r, v, e, hv⟩
  | .range t, h => ((taken_spec t h).pair (taken_spec t h)).image0 (B := Accepts (.range t))
      (fun p => (⟨p.1, p.2⟩ : RangeVal t.Val)) (fun bs v hv => ⟨(v.start, v.stop), hv⟩) (fun bs p hp => hp)
  | .rangeInclusive t, h => ((taken_spec t h).pair (taken_spec t h)).image0 (B := Accepts (.rangeInclusive t))
      (fun p => (⟨p.1, p.2, false⟩ : RangeInclusiveVal t.Val)) (fun bs v hv => ⟨(v.start, v.stop), hv.2⟩)
      (fun bs p hp => ⟨rfl, hp⟩)
  | .lock k t, h => (taken_spec t h).image0 (B := Accepts (.lock k t)) (fun v => (⟨false, v⟩ : LockVal t.Val))
      (fun bs v hv => ⟨v.val, hv.2⟩) (fun bs v hv => ⟨rfl, hv⟩)
  | .refCell t, h => (taken_spec t h).image0 (B := Accepts (.refCell t)) (fun v => (⟨false, v⟩ : RefCellVal t.Val))
      (fun bs v hv => ⟨v.val, hv.2⟩) (fun bs v hv => ⟨rfl, hv⟩)
  | .duration, _ => .leaf (leBytes 8 0 ++ leBytes 4 0) (⟨0, 0, by decide⟩ : DurationVal)
      ⟨0, 0, by decide, by decide, rfl, rfl⟩ rfl fun bs v ⟨s, n, _, _, e, _⟩ => by
        rw [e, List.length_append, leBytes_length, leBytes_length]; exact Nat.le_refl _
  | .systemTime p, _ => .leaf (leBytesInt 8 0) (⟨0, p.lo_le, p.le_hi⟩ : {ns : Int // p.lo ≤ ns ∧ ns ≤ p.hi})
      ⟨0, by decide, rfl, rfl⟩ rfl fun bs v ⟨x, _, e, _⟩ => by
        rw [e, leBytesInt_length]; exact Nat.le_refl _
  | .ipv4, _ => .leaf _ (⟨[0, 0, 0, 0], rfl⟩ : Items UInt8 4) rfl rfl
      fun bs v h => by rw [show bs = _ from h, List.length_reverse, v.property]; exact Nat.le_refl _
  | .ipv6, _ => .leaf _ (⟨List.replicate 16 0, rfl⟩ : Items UInt8 16) rfl rfl
      fun bs v h => by rw [show bs = _ from h, List.length_reverse, v.property]; exact Nat.le_refl _
  | .ipAddr, _ => .leaf _ (.v6 ⟨List.replicate 16 0, rfl⟩ : IpAddrVal) rfl rfl fun bs v h => by
      match v, h with
      | .v4 a, h => rw [show bs = _ from h]; simp [a.property]
      | .v6 a, h => rw [show bs = _ from h]; simp [a.property]
  | .socketAddrV4, _ => .leaf _ (⟨⟨[0, 0, 0, 0], rfl⟩, 0⟩ : SocketAddrV4Val) rfl rfl
      fun bs v h => by rw [show bs = _ from h]; simp [leBytes_length, v.ip.property]
  | .socketAddrV6, _ => .leaf _ (⟨⟨List.replicate 16 0, rfl⟩, 0, 0, 0⟩ : SocketAddrV6Val) rfl rfl
      fun bs v h => by rw [show bs = _ from h]; simp [leBytes_length, v.ip.property]
  | .socketAddr, _ => .leaf _ (.v6 ⟨⟨List.replicate 16 0, rfl⟩, 0, 0, 0⟩ : SocketAddrVal) rfl rfl
      fun bs v h => by
        match v, h with
        | .v4 a, h => rw [show bs = _ from h]; simp [leBytes_length, a.ip.property]
        | .v6 a, h => rw [show bs = _ from h]; simp [leBytes_length, a.ip.property]
  | .str _, h => nomatch h
  | .cStr _, h => nomatch h
  | .sizedStr n, _ => by
    have hl : (List.replicate (min n 65535) (97 : Byte)).length = min n 65535 := List.length_replicate
    refine .leaf (leBytes 2 (min n 65535) ++ List.replicate (min n 65535) 97)
      (⟨List.replicate (min n 65535) 97, valid_replicate _, by rw [hl]; omega⟩ :
        {bs : List Byte // Utf8.valid bs = true ∧ bs.length ≤ n}) ⟨?_, ?_⟩ ?_ fun bs v h => ?_
    · show (List.replicate (min n 65535) (97 : Byte)).length ≤ _
      rw [hl]; omega
    · show _ = leBytes 2 (List.replicate (min n 65535) (97 : Byte)).length ++ List.replicate (min n 65535) 97
      rw [hl]
    · rw [List.length_append, leBytes_length, hl]
    · have h1 := v.property.2
      have h2 := h.1
      rw [h.2, List.length_append, leBytes_length]
      omega
  | .sizedSlice t n, h => by
    have h1 := ((taken_spec t h).items n).image (B := Accepts (.sizedSlice t n)) 2
      (fun _ => (⟨[], Nat.zero_le _⟩ : {l : List t.Val // l.length ≤ n})) ?_ ?_
    · have e : mostTaken (.sizedSlice t n)
          = (if n = 0 then some 0 else (mostTaken t).map (· * n)).map (2 + ·) := by
        rw [mostTaken]
        split
        · rfl
        · rw [Option.map_map]; rfl
      rw [e]
      exact h1
    · rintro bs v ⟨l, r, hl, _, e, hE, _⟩
      exact ⟨r, ⟨l, hl⟩, hE, by rw [e, List.length_append, leBytes_length]⟩
    · rintro bs ⟨l, hl⟩ hE
      exact ⟨leBytes 2 0 ++ bs, by rw [List.length_append, leBytes_length],
        l, bs, hl, Nat.zero_le _, rfl, hE, List.nil_prefix⟩
  | .tuple fs, h => takenFields_spec fs h
  | .struct fs, h => takenFields_spec fs h
  | .enum r vs, h => takenVariants_spec vs h r _ 0

theorem takenFields_spec : (fs : Fields) → fs.HasSized → MostTaken (AcceptsFields fs) (mostTakenFields fs)
  | .nil, _ => .leaf [] () rfl rfl fun bs v h => Nat.le_of_eq (by rw [show bs = [] from h]; rfl)
  | .cons t fs, h => (taken_spec t h.1).pair (takenFields_spec fs h.2)

theorem takenVariants_spec : (vs : Variants) → vs.HasSized → (r : Repr) → (ex : List (Option Nat)) → (j : Nat) →
    MostTaken (AcceptsVariants r ex vs j) ((mostTakenVariants r ex vs j).map (r.bytes + ·))
  | .nil, _, _, _, _ => fun p => nomatch p.2
  | .cons d fs vs, h, r, ex, j => by
    have ih1 := takenFields_spec fs h.1
    have ih2 := takenVariants_spec vs h.2 r ex (j + 1)
    have e : (mostTakenVariants r ex (.cons d fs vs) j).map (r.bytes + ·) =
        larger ((if ReprEncodable r (discOf ex j) then mostTakenFields fs else none).map (r.bytes + ·))
          ((mostTakenVariants r ex vs (j + 1)).map (r.bytes + ·)) := by
      rw [mostTakenVariants]
      generalize (if ReprEncodable r (discOf ex j) then mostTakenFields fs else none) = a
      generalize mostTakenVariants r ex vs (j + 1) = b
      cases a <;> cases b <;> simp [larger]
    rw [e]
    refine MostTaken.sum (A := fun bs v => AcceptsVariants r ex (.cons d fs vs) j bs (.inl v)) ?_ ih2
      (fun v => (.inl v : fs.Val ⊕ vs.Val)) (fun v => (.inr v : fs.Val ⊕ vs.Val))
      (fun _ _ h => h) (fun _ _ h => h) ?_
    · by_cases hr : ReprEncodable r (discOf ex j)
      · rw [if_pos hr]
        refine ih1.image r.bytes id ?_ ?_
        · rintro bs v ⟨_, w, rfl, hv⟩
          exact ⟨w, v, hv, by rw [List.length_append, reprWire_length]⟩
        · intro bs v hv
          exact ⟨_, by rw [List.length_append, reprWire_length], hr, bs, rfl, hv⟩
      · rw [if_neg hr]
        exact fun p hp => hr hp.1
    · intro bs c hc
      match c, hc with
      | .inl v, hc => exact .inl ⟨v, hc⟩
      | .inr v, hc => exact .inr ⟨v, hc⟩

end

/-! How far decoding gets. -/

section
variable {α β : Type} {A : List Byte → α → Prop} {R : List Byte → DecErr → Prop} {L : Option Nat} {F F' : Nat}

/-- What is accepted is taken. -/
theorem Consumes.accepted {m : Dec α} (hm : Consumes true m F) (hp : Parses m A R) {bs : List Byte} {a : α}
    (h : A bs a) : bs.length ≤ F := by
  have h1 := ((hp ⟨bs, 0⟩ ⟨bs, bs.length⟩).1 a).mpr ⟨bs, ⟨⟨[], by simp⟩, by simp⟩, h⟩
  have h2 := hm ⟨bs, 0⟩ (.inl rfl)
  rw [h1] at h2
  simpa using h2

theorem Consumes.after {m : Dec α} {f : α → Dec β} (hm : Consumes true m F) (hp : Parses m A R)
    (hl : ∀ bs a, A bs a → ∃ l, L = some l ∧ bs.length ≤ l)
    (hf : ∀ bs a, A bs a → Consumes true (f a) F') : Consumes true (m >>= f) (far F L F') := by
  intro i _
  have h := hm i (.inl rfl)
  have hF : F ≤ far F L F' := by
    unfold far
    split
    · exact Nat.le_refl _
    · exact Nat.le_max_left _ _
  show (Dec.bind m f i).2.pos ≤ _
  unfold Dec.bind
  cases hq : m i with
  | mk q i' =>
    rw [hq] at h
    cases q with
    | ok a =>
      obtain ⟨bs, ht, hA⟩ := ((hp i i').1 a).mp hq
      obtain ⟨l, rfl, hle⟩ := hl bs a hA
      have h2 := hf bs a hA i' (.inl rfl)
      have h3 : i'.pos = i.pos + bs.length := by rw [ht.2]
      have h4 : l + F' ≤ far F (some l) F' := Nat.le_max_right _ _
      simp only
      omega
    | err e => simp only at h ⊢; omega
    | panic e => simp only at h ⊢; omega
    | ub e => simp only at h ⊢; omega

theorem decItems_furthest {dec : Dec α} (h : Consumes true dec F) (hp : Parses dec A R)
    (hl : ∀ bs a, A bs a → ∃ l, L = some l ∧ bs.length ≤ l) (hL : ∀ l, L = some l → l ≤ F) :
    (n i : Nat) → Consumes true (decItems dec n i) (farItems F L n)
  | 0, i => Consumes.pure _ _
  | n + 1, i => by
    refine (Consumes.after (L := L) (F' := farItems F L n) (h.mapErr _) (hp.mapErr _) hl fun _ _ _ =>
      Consumes.bind_pure (decItems_furthest h hp hl hL n (i + 1))).mono ?_
    unfold far farItems
    rw [if_neg (Nat.succ_ne_zero n)]
    cases L with
    | none => simp
    | some l =>
      have := hL l rfl
      simp only [Option.getD_some, Nat.add_sub_cancel]
      by_cases hn : n = 0
      · subst hn
        simp
        omega
      · rw [if_neg hn]
        obtain ⟨k, rfl⟩ := Nat.exists_eq_succ_of_ne_zero hn
        rw [Nat.succ_sub_one, Nat.mul_succ]
        omega

end

theorem decSizedStr_furthest (n : Nat) : Consumes true (decSizedStr n) (2 + 65535) := by
  refine (Consumes.after (L := some 2) (F' := 65535) decUsize_consumes decUsize_parses
    (fun bs a h => ⟨2, rfl, by rw [h.2, leBytes_length]; exact Nat.le_refl _⟩) ?_)
  intro bs len h
  refine (Consumes.bind (k := len) (k' := 0) (Consumes.read len) fun d => ?_).mono h.1
  cases sizedStrFromUtf8 n d with
  | none => exact Consumes.panic _ _
  | some q =>
    cases q with
    | ok s => exact Consumes.pure _ _
    | error e => exact Consumes.fail _ _

theorem mostTaken_le {t : Ty} (ht : t.WF) (hs : t.HasSized) (h : Consumes true t.decode (furthest t)) (l : Nat)
    (e : mostTaken t = some l) : l ≤ furthest t := by
  have := taken_spec t hs
  rw [e] at this
  obtain ⟨⟨⟨bs, v⟩, hA, hl⟩, _⟩ := this
  have := h.accepted (Ty.decode_parses t ht) (show Accepts t bs v from hA)
  simp only at hl
  omega

mutual

theorem Ty.decode_furthest : (t : Ty) → t.WF → t.HasSized → Consumes true t.decode (furthest t)
  | .num k, _, _ => Consumes.bind_pure (decNum_consumes _)
  | .bool, _, _ => decBool_consumes
  | .char, _, _ => decChar_consumes
  | .usize, _, _ => decUsize_consumes
  | .isize, _, _ => decIsize_consumes
  | .nonZero r, _, _ => decNonZero_consumes r
  | .unit _, _, _ => Consumes.pure _ _
  | .infallible, _, _ => Consumes.panic _ _
  | .wrap _ t, hw, h => Ty.decode_furthest t hw h
  | .array t n, hw, h => decItems_furthest (Ty.decode_furthest t hw h) (Ty.decode_parses t hw)
      (fun _ _ hA => (taken_spec t h).le hA) (mostTaken_le hw h (Ty.decode_furthest t hw h)) n 0
  | .seq _ _, _, h => nomatch h
  | .hashMap _ _, _, h => nomatch h
  | .hashSet _, _, h => nomatch h
  | .option t, hw, h => Consumes.bind decBool_consumes fun b =>
      Consumes.ite (fun _ => Consumes.bind_pure (Ty.decode_furthest t hw h)) (fun _ => Consumes.pure _ _)
  | .result t e, hw, h => Consumes.bind decBool_consumes fun b => Consumes.ite
        (fun _ => (Consumes.bind_pure ((Ty.decode_furthest e hw.2 h.2).mapErr _)).mono (Nat.le_max_right _ _))
        (fun _ => (Consumes.bind_pure ((Ty.decode_furthest t hw.1 h.1).mapErr _)).mono (Nat.le_max_left _ _))
  | .bound t, hw, h => Consumes.bind decU8_consumes fun b =>
      Consumes.ite (fun _ => Consumes.bind_pure ((Ty.decode_furthest t hw h).mapErr _))
        (fun _ => Consumes.ite (fun _ => Consumes.bind_pure ((Ty.decode_furthest t hw h).mapErr _))
          (fun _ => Consumes.ite (fun _ => Consumes.pure _ _) (fun _ => Consumes.fail _ _)))
  | .range t, hw, h => Consumes.after (Ty.decode_furthest t hw h) (Ty.decode_parses t hw)
      (fun _ _ hA => (taken_spec t h).le hA) fun _ _ _ => Consumes.bind_pure (Ty.decode_furthest t hw h)
  | .rangeInclusive t, hw, h => Consumes.after (Ty.decode_furthest t hw h) (Ty.decode_parses t hw)
      (fun _ _ hA => (taken_spec t h).le hA) fun _ _ _ => Consumes.bind_pure (Ty.decode_furthest t hw h)
  | .lock _ t, hw, h => Consumes.bind_pure (Ty.decode_furthest t hw h)
  | .refCell t, hw, h => Consumes.bind_pure (Ty.decode_furthest t hw h)
  | .duration, _, _ => decDuration_consumes
  | .systemTime p, _, _ => decSystemTime_consumes p
  | .ipv4, _, _ => decIpv4_consumes
  | .ipv6, _, _ => decIpv6_consumes
  | .ipAddr, _, _ => decIpAddr_consumes
  | .socketAddrV4, _, _ => decSocketAddrV4_consumes
  | .socketAddrV6, _, _ => decSocketAddrV6_consumes
  | .socketAddr, _, _ => decSocketAddr_consumes
  | .str _, _, h => nomatch h
  | .cStr _, _, h => nomatch h
  | .sizedStr n, _, _ => decSizedStr_furthest n
  | .sizedSlice t n, hw, h => Consumes.bind decUsize_consumes fun len =>
      Consumes.ite (fun _ => Consumes.fail _ _) (fun _ => Consumes.bind_pure
        (decItems_furthest (Ty.decode_furthest t hw h) (Ty.decode_parses t hw)
          (fun _ _ hA => (taken_spec t h).le hA) (mostTaken_le hw h (Ty.decode_furthest t hw h)) n 0))
  | .tuple fs, hw, h => Fields.decode_furthest fs hw h _
  | .struct fs, hw, h => Fields.decode_furthest fs hw h _
  | .enum r vs, hw, h => by
    refine (Consumes.after (L := some r.bytes) (F' := furthestVariants r (explicitDiscs vs) vs 0)
      (decRepr_consumes r) (decRepr_parses r)
      (fun bs a h => ⟨_, rfl, by rw [h.2.2, reprWire_length]; exact Nat.le_refl _⟩) fun bs x hx =>
        Variants.decode_furthest vs hw.2.2 h none (explicitDiscs vs) 0 r x hx.1 (by simp) (by simp)).mono ?_
    show max _ _ ≤ r.bytes + _
    omega

theorem Fields.decode_furthest : (fs : Fields) → fs.WF → fs.HasSized → (g : DecErr → DecErr) →
    Consumes true (fs.decode g) (furthestFields fs)
  | .nil, _, _, _ => Consumes.pure _ _
  | .cons t fs, hw, h, g => Consumes.after ((Ty.decode_furthest t hw.1 h.1).mapErr g)
      ((Ty.decode_parses t hw.1).mapErr g) (fun _ _ hA => (taken_spec t h.1).le hA) fun _ _ _ =>
      Consumes.bind_pure (Fields.decode_furthest fs hw.2 h.2 g)

theorem Variants.decode_furthest : (vs : Variants) → vs.WF → vs.HasSized → (prev : Option Nat) →
    (ex : List (Option Nat)) → (j : Nat) → (r : Repr) → (x : Int) → ReprEncodable r x →
    ex.drop j = explicitDiscs vs → (prev = if j = 0 then none else some (discOf ex (j - 1))) →
    Consumes true (vs.decode prev x) (furthestVariants r ex vs j)
  | .nil, _, _, _, _, _, _, _, _, _, _ => Consumes.fail _ _
  | .cons d fs vs, hw, h, prev, ex, j, r, x, hx, he, hp => by
    have hd : discOf ex j = nextDisc prev d := by
      rw [hp]
      apply discOf_step
      have := congrArg (·[0]?) he
      simpa [explicitDiscs] using this
    have hdrop : ex.drop (j + 1) = explicitDiscs vs := by
      have := congrArg List.tail he
      simpa [explicitDiscs] using this
    refine Consumes.ite (fun e => ?_) (fun _ => ?_)
    · refine (Consumes.bind_pure (Fields.decode_furthest fs hw.1 h.1 _)).mono ?_
      unfold furthestVariants
      rw [if_pos (by rw [hd, ← e]; exact hx)]
      exact Nat.le_max_left _ _
    · exact (Consumes.bind_pure (Variants.decode_furthest vs hw.2 h.2 _ ex (j + 1) r x hx hdrop
        (by simp [hd]))).mono (Nat.le_max_right _ _)

end

end Oct
