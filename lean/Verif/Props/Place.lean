import Verif.Proofs.Place
import Verif.Props.Encoding
import Verif.Proofs.RoundTrip
import Verif.Proofs.Damage
/-
C145: reading and replacing parts of values where they were encoded.
-/
namespace Oct.Props
open Oct Spec
set_option linter.unusedVariables false

/-- The octets of a value that is replaced by one as long. -/
theorem poke_at {u : Ty} {y : u.Val} (hy : Encodable u y) (A w C : List Byte) (hw : (wire u y).length = w.length) :
    ∃ o, u.encode y (Output.new (w ++ C)) = (.ok (), o) ∧ o.buf = wire u y ++ C := by
  obtain ⟨o, h1, h2, h3, h4, h5⟩ := C03_encode_exact u y hy (Output.new (w ++ C)) (Nat.zero_le _)
    (by show _ ≤ (w ++ C).length - 0; rw [List.length_append]; omega)
  refine ⟨o, h1, ?_⟩
  have e1 : o.buf.take o.pos = wire u y := by
    have h4 : o.buf.take o.pos = (w ++ C).take 0 ++ wire u y := h4
    simpa using h4
  have e2 : o.pos = w.length := by
    have h2 : o.pos = 0 + (wire u y).length := h2
    omega
  have e3 : o.buf.drop o.pos = C := by
    have h5 : o.buf.drop o.pos = (w ++ C).drop o.pos := h5
    rw [h5, e2, List.drop_left]
  rw [← List.take_append_drop o.pos o.buf, e1, e3]

/-- C145. A part of an encoded value can be read without decoding what is before it, at the place found by adding up
`MAX_ENCODED_SIZE`, if everything before it takes as many octets as `MAX_ENCODED_SIZE` says: what is read is what
decoding the whole would give there. -/
theorem C145_peek (S : Ty → Nat) {t u : Ty} (p : Place t u) (hu : u.WF) (v : t.Val) (x : u.Val) (hx : part p v = some x)
    (hb : Steady S p v) (hs : Supported u x) (he : Encodable u x) (pre rest : List Byte) :
    p.peek S (pre ++ (wire t v ++ rest)) pre.length = .ok (carried u x) := by
  obtain ⟨A, C, h1, h2, _⟩ := sits_part (S := S) p v x hx hb
  have e : pre ++ (wire t v ++ rest) = (pre ++ A) ++ (wire u x ++ (C ++ rest)) := by rw [h2]; simp
  have el : pre.length + p.offset S = (pre ++ A).length := by rw [List.length_append, h1]
  unfold Place.peek
  rw [e, el, if_neg (by simp [List.length_append]), List.drop_left]
  have h := Ty.decode_decodes u hu x hs he [] (C ++ rest)
  exact congrArg Prod.fst h

/-- `struct Record { id: u16, samples: [u16; 3], note: Option<u8> }`. -/
def recordTy : Ty :=
  .struct (.cons (.num (.int .u16)) (.cons (.array (.num (.int .u16)) 3) (.cons (.option (.num (.int .u8))) .nil)))

/-- A record. -/
def aRecord : recordTy.Val := (0x0102#16, ⟨[3#16, 4#16, 5#16], rfl⟩, some 6#8, ())

/-- `record.samples[2]`. -/
def lastSample : Place recordTy (.num (.int .u16)) := .struct (.tail (.head (.array 2 .here)))

example : part lastSample aRecord = some 5#16 := rfl
example : Steady (fun _ => 0) lastSample aRecord :=
  (steady_of lastSample ⟨by decide, ⟨.inr (by decide), trivial⟩⟩ _)
example : lastSample.peek (fun _ => 0) ([0xFF] ++ (wire recordTy aRecord ++ [])) 1 = .ok 5#16 :=
  C145_peek (fun _ => 0) lastSample trivial aRecord 5#16 rfl
    (steady_of lastSample ⟨by decide, ⟨.inr (by decide), trivial⟩⟩ _) trivial trivial [0xFF] []
example : lastSample.offset (fun _ => 0) = 6 := rfl

/-- C145. It can be replaced there by another that takes as many octets as it: nothing else changes. -/
theorem C145_poke (S : Ty → Nat) {t u : Ty} (p : Place t u) (v : t.Val) (x y : u.Val) (hx : part p v = some x)
    (hb : Steady S p v) (hy : Encodable u y) (hl : (wire u y).length = (wire u x).length) (pre rest : List Byte) :
    p.poke S y (pre ++ (wire t v ++ rest)) pre.length = (.ok (), pre ++ (wire t (withPart p y v) ++ rest)) ∧
    part p (withPart p y v) = some y ∧ (Encodable t v → Encodable t (withPart p y v)) := by
  obtain ⟨A, C, h1, h2, h3⟩ := sits_part (S := S) p v x hx hb
  have e : pre ++ (wire t v ++ rest) = (pre ++ A) ++ (wire u x ++ (C ++ rest)) := by rw [h2]; simp
  have e' : pre ++ (wire t (withPart p y v) ++ rest) = (pre ++ A) ++ (wire u y ++ (C ++ rest)) := by
    have h3 := h3 y
    simp only at h3
    rw [h3]
    simp
  have el : pre.length + p.offset S = (pre ++ A).length := by rw [List.length_append, h1]
  obtain ⟨o, h4, h5⟩ := poke_at hy (pre ++ A) (wire u x) (C ++ rest) hl
  have hsw := (encodable_swaps p v x hx).2 y
  refine ⟨?_, hsw.1, fun h => hsw.2 h hy⟩
  unfold Place.poke
  rw [e, el, if_neg (by simp [List.length_append]), List.drop_left, List.take_left]
  simp only [h4, h5]
  rw [e']

example : lastSample.poke (fun _ => 0) 0x0708#16 [0xFF, 2, 1, 3, 0, 4, 0, 5, 0, 1, 6] 1 =
    (.ok (), [0xFF, 2, 1, 3, 0, 4, 0, 8, 7, 1, 6]) := by decide
example : part lastSample aRecord = some 5#16 ∧ Steady (fun _ => 0) lastSample aRecord ∧
    Encodable (.num (.int .u16)) 0x0708#16 ∧
    (wire (.num (.int .u16)) 0x0708#16).length = (wire (.num (.int .u16)) 5#16).length :=
  ⟨rfl, steady_of lastSample ⟨by decide, ⟨.inr (by decide), trivial⟩⟩ _, trivial, rfl⟩

/-- C145. Whatever is in the buffer, the program writes nothing before the place, and nothing behind what it writes; it is
told of success if, and only if, the new part can be encoded and there is room for it, and then just its octets are
written. If the place is out of bounds, both programs panic, and nothing is written. -/
theorem C145_writes (S : Ty → Nat) {t u : Ty} (p : Place t u) (y : u.Val) (buf : List Byte) (pos : Nat) :
    (buf.length < pos + p.offset S →
      p.poke S y buf pos = (.panic .indexOutOfBounds, buf) ∧ p.peek S buf pos = .panic .indexOutOfBounds) ∧
    (pos + p.offset S ≤ buf.length → ∃ w r,
      p.poke S y buf pos = (r, buf.take (pos + p.offset S) ++ (w ++ buf.drop (pos + p.offset S + w.length))) ∧
      pos + p.offset S + w.length ≤ buf.length ∧
      (r = .ok () ↔ Encodable u y ∧ pos + p.offset S + (wire u y).length ≤ buf.length) ∧
      (r = .ok () → w = wire u y)) := by
  refine ⟨fun h => ⟨if_pos h, if_pos h⟩, fun h => ?_⟩
  obtain ⟨w, r, h1, h2, h3⟩ := Ty.encode_encodes u y
  have hlen : (buf.drop (pos + p.offset S)).length = buf.length - (pos + p.offset S) := List.length_drop
  have hrem : (Output.new (buf.drop (pos + p.offset S))).remaining = buf.length - (pos + p.offset S) := hlen
  have hput : ∀ w, ((Output.new (buf.drop (pos + p.offset S))).put w).buf =
      w ++ buf.drop (pos + p.offset S + w.length) := by
    intro w
    show [] ++ w ++ (buf.drop (pos + p.offset S)).drop (0 + w.length) = _
    rw [List.drop_drop, List.nil_append, Nat.zero_add]
  have hp : p.poke S y buf pos = ((u.encode y (Output.new (buf.drop (pos + p.offset S)))).1,
      buf.take (pos + p.offset S) ++ (u.encode y (Output.new (buf.drop (pos + p.offset S)))).2.buf) :=
    if_neg (Nat.not_lt.mpr h)
  obtain ⟨ha, hb⟩ := h1 (Output.new (buf.drop (pos + p.offset S))) (Nat.zero_le _)
  rw [hrem] at ha hb
  by_cases hw : w.length ≤ buf.length - (pos + p.offset S)
  · refine ⟨w, r, ?_, by omega, ⟨fun hr => ⟨h2.1 hr, ?_⟩, fun he => h2.2 he.1⟩, fun hr => h3 (h2.1 hr)⟩
    · rw [hp, ha hw, hput]
    · rw [← h3 (h2.1 hr)]
      omega
  · obtain ⟨w', h4, h5, h6⟩ := hb (by omega)
    refine ⟨w', .panic .shortOutput, ?_, by omega, ⟨fun hr => (nomatch hr), fun he => ?_⟩, fun hr => nomatch hr⟩
    · rw [hp, h6, hput]
    · have := h3 he.1
      subst this
      omega

example : lastSample.poke (fun _ => 0) 0x0708#16 [0xFF, 2, 1, 3, 0, 4, 0, 5] 1 =
    (.panic .shortOutput, [0xFF, 2, 1, 3, 0, 4, 0, 5]) := by decide
example : (Place.array 1 .here : Place (.array .usize 2) .usize).poke (fun _ => 0) (65536 : Nat) [1, 2, 3, 4, 5] 0 =
    (.err (.usize 65536), [1, 2, 3, 4, 5]) := by decide
example : lastSample.poke (fun _ => 0) 0x0708#16 [0xFF, 2, 1] 1 = (.panic .indexOutOfBounds, [0xFF, 2, 1]) := by decide

/-- C145. So decoding what the program left gives the value with the part replaced. -/
theorem C145_decoded (S : Ty → Nat) {t u : Ty} (p : Place t u) (ht : t.WF) (v : t.Val) (x y : u.Val)
    (hx : part p v = some x) (hb : Steady S p v) (hs : Supported t v) (he : Encodable t v) (hs' : Supported u y)
    (hy : Encodable u y) (hl : (wire u y).length = (wire u x).length) (pre rest : List Byte) :
    ∃ buf, p.poke S y (pre ++ (wire t v ++ rest)) pre.length = (.ok (), buf) ∧
      (t.decode ⟨buf, pre.length⟩).1 = .ok (carried t (withPart p y v)) := by
  obtain ⟨h1, _, h2⟩ := C145_poke S p v x y hx hb hy hl pre rest
  refine ⟨_, h1, ?_⟩
  have := Ty.decode_decodes t ht (withPart p y v) (((supported_swaps p v x hx).2 y).2 hs hs') (h2 he) pre rest
  rw [this]

example : recordTy.WF ∧ Supported recordTy aRecord ∧ Encodable recordTy aRecord := by
  refine ⟨⟨trivial, trivial, trivial, trivial⟩, ⟨trivial, fun _ _ => trivial, trivial, trivial⟩,
    ⟨trivial, fun _ _ => trivial, trivial, trivial⟩⟩
example : (recordTy.decode ⟨[0xFF, 2, 1, 3, 0, 4, 0, 8, 7, 1, 6], 1⟩).1 =
    .ok (0x0102#16, ⟨[3#16, 4#16, 0x0708#16], rfl⟩, some 6#8, ()) := by decide

/-- C145. Everything before a part takes as many octets as `MAX_ENCODED_SIZE` says, whatever the values, if it can only
be of types of fixed size; and a value of a type of fixed size can be replaced by any other. -/
theorem C145_fixed (S : Ty → Nat) {t u : Ty} (p : Place t u) (h : FixedTo p) :
    (∀ v, Steady S p v) ∧ (fixedSize u ≠ none → ∀ x y, (wire u y).length = (wire u x).length) := by
  refine ⟨steady_of p h, fun hu x y => ?_⟩
  have h1 := fills_of_fixed (S := S) hu x
  have h2 := fills_of_fixed (S := S) hu y
  exact h2.trans h1.symm

example : FixedTo lastSample ∧ fixedSize (.num (.int .u16)) ≠ none :=
  ⟨⟨by decide, ⟨.inr (by decide), trivial⟩⟩, by decide⟩

/-- A `struct` of two fields, and its second field. -/
def secondOf (s u : Ty) : Place (.struct (.cons s (.cons u .nil))) u := .struct (.tail (.head .here))

/-- C145. An octet behind a field is found in this way in every value if, and only if, every value of the field takes
exactly `MAX_ENCODED_SIZE` octets. -/
theorem C145_exactly (S : Ty → Nat) (s : Ty) :
    (∀ (v : s.Val) (b : BitVec 8), Encodable s v →
      (secondOf s (.num (.int .u8))).peek S (wire (.struct (.cons s (.cons (.num (.int .u8)) .nil))) (v, b, ())) 0 =
        .ok b) ↔
    ∀ v, Encodable s v → (wire s v).length = s.maxSize S := by
  have hW : ∀ (v : s.Val) (b : BitVec 8), wire (.struct (.cons s (.cons (.num (.int .u8)) .nil))) (v, b, ()) =
      wire s v ++ (wire (.num (.int .u8)) b ++ []) := fun _ _ => rfl
  have hl : ∀ b : BitVec 8, (wire (.num (.int .u8)) b).length = 1 := fun _ => rfl
  have ho : (secondOf s (.num (.int .u8))).offset S = s.maxSize S := rfl
  constructor
  · intro h v hv
    rcases Nat.lt_trichotomy (s.maxSize S) (wire s v).length with hM | hM | hM
    · exfalso
      have e : wire s v = (wire s v).take (s.maxSize S) ++ (wire s v)[s.maxSize S] :: (wire s v).drop (s.maxSize S + 1) := by
        rw [List.getElem_cons_drop, List.take_append_drop]
      generalize hc : (wire s v)[s.maxSize S] = c at e
      have hh := h v (c.toBitVec + 1#8) hv
      rw [hW] at hh
      unfold Place.peek at hh
      rw [ho, Nat.zero_add, if_neg (by rw [List.length_append]; omega), List.drop_append_of_le_length (Nat.le_of_lt hM),
        ← List.getElem_cons_drop hM, hc] at hh
      have hy := octet_yields c [] ((wire s v).drop (s.maxSize S + 1) ++
        (wire (.num (.int .u8)) (c.toBitVec + 1#8) ++ []))
      have hy' := congrArg Prod.fst hy
      have hh' := hy'.symm.trans hh
      have hh' := Res.ok.inj hh'
      have h1 : c.toBitVec.toNat = (c.toBitVec + 1#8).toNat := congrArg BitVec.toNat hh'
      rw [BitVec.toNat_add] at h1
      have : c.toBitVec.toNat < 256 := c.toBitVec.isLt
      simp at h1
      omega
    · exact hM.symm
    · exfalso
      have hh := h v 0#8 hv
      rw [hW] at hh
      have hlen : (wire s v ++ (wire (.num (.int .u8)) 0#8 ++ [])).length = (wire s v).length + 1 := by
        rw [List.length_append, List.append_nil, hl]
      unfold Place.peek at hh
      rw [ho, Nat.zero_add, hlen] at hh
      by_cases hM' : (wire s v).length + 1 < s.maxSize S
      · rw [if_pos hM'] at hh
        cases hh
      · rw [if_neg hM', List.drop_of_length_le (by omega)] at hh
        cases hh
  · intro h v b hv
    have := C145_peek S (secondOf s (.num (.int .u8))) trivial (v, b, ()) b rfl ⟨h v hv, trivial⟩ trivial trivial [] []
    rw [List.append_nil] at this
    exact this

example : ∀ v : (Ty.num (.int .u16)).Val, (wire (.num (.int .u16)) v).length = (Ty.num (.int .u16)).maxSize fun _ => 0 :=
  fun _ => rfl

/-- C145 is false of parts that come after others of varying size. Of two values `(None, 7)` and `(None, 9)`, written one
after the other, the second field of the first is read as `0`, and of the second is not there to be read. -/
theorem C145_false_found :
    ¬ ∀ (S : Ty → Nat) (t u : Ty) (p : Place t u) (v : t.Val) (x : u.Val), u.WF → part p v = some x → Encodable t v →
      Supported t v → ∀ pre rest, p.peek S (pre ++ (wire t v ++ rest)) pre.length = .ok (carried u x) := by
  intro h
  have := h (fun _ => 0) _ _ (secondOf (.option (.num (.int .u8))) (.num (.int .u8))) (none, 7#8, ()) 7#8 trivial rfl
    ⟨trivial, trivial, trivial⟩ ⟨trivial, trivial, trivial⟩ [] [0, 9]
  exact absurd this (by decide)

example : (secondOf (.option (.num (.int .u8))) (.num (.int .u8))).peek (fun _ => 0) [0, 7, 0, 9] 0 = .ok 0#8 ∧
    (secondOf (.option (.num (.int .u8))) (.num (.int .u8))).peek (fun _ => 0) [0, 7, 0, 9] 2 = .panic .shortInput := by
  decide

/-- C145 is false of values that take more octets than those they replace: `Some(5)` written over `None` is written over
the next field too, and both the next field and what was behind the value are taken for something else. -/
theorem C145_false_replaced :
    ¬ ∀ (S : Ty → Nat) (t u : Ty) (p : Place t u) (v : t.Val) (x y : u.Val), part p v = some x → Steady S p v →
      Encodable u y → ∀ pre rest,
        p.poke S y (pre ++ (wire t v ++ rest)) pre.length = (.ok (), pre ++ (wire t (withPart p y v) ++ rest)) := by
  intro h
  have := h (fun _ => 0) (.struct (.cons (.option (.num (.int .u8))) (.cons (.num (.int .u8)) .nil))) _
    (.struct (.head .here)) (none, 7#8, ()) none (some 5#8) rfl trivial trivial [] [9]
  exact absurd this (by decide)

example : (Place.struct (.head .here) : Place (.struct (.cons (.option (.num (.int .u8))) (.cons (.num (.int .u8)) .nil)))
      (.option (.num (.int .u8)))).poke (fun _ => 0) (some 5#8) [0, 7, 9] 0 = (.ok (), [1, 5, 9]) ∧
    ((Ty.struct (.cons (.option (.num (.int .u8))) (.cons (.num (.int .u8)) .nil))).decode ⟨[1, 5, 9], 0⟩).1 =
      .ok (some 5#8, 9#8, ()) := by
  decide

end Oct.Props
