import Verif.Proofs.Derived
import Verif.Props.Samples
/-
C39, C45, C46: types that share a format.
-/
namespace Oct.Props
open Oct Spec
set_option linter.unusedVariables false

/-- The octets, as values of `u8`. -/
def u8s (l : List Byte) : List (Ty.num (.int .u8)).Val := l.map fun b => b.toBitVec

theorem u8s_length (l : List Byte) : (u8s l).length = l.length := List.length_map _

theorem u8s_wire (l : List Byte) : (u8s l).flatMap (wire (.num (.int .u8))) = l := by
  induction l with
  | nil => rfl
  | cons b l ih =>
    show leBytes 1 b.toNat ++ (u8s l).flatMap (wire (.num (.int .u8))) = _
    rw [ih, leBytes_one, Nat.mod_eq_of_lt b.toNat_lt]
    simp

/-- C39. Slices, vectors, linked lists and sized slices (of any capacity) with the same items are
encoded in the same streams to the same effect. -/
theorem C39_sequences (t : Ty) (l : List t.Val) (k k' : SeqKind) (n : Nat) (h : l.length ≤ n) :
    EncodesSame (.seq k t) l (.seq k' t) l ∧ EncodesSame (.seq k t) l (.sizedSlice t n) ⟨l, h⟩ :=
  ⟨encodesSame (t := .seq k t) (t' := .seq k' t) (v := l) (v' := l) rfl Iff.rfl,
    encodesSame (t := .seq k t) (t' := .sizedSlice t n) (v := l) (v' := ⟨l, h⟩) rfl Iff.rfl⟩

/-- C39. So are `str`, `String` and sized strings (of any capacity) with the same text, and the
vector of its octets. -/
theorem C39_texts (bs : List Byte) (hv : Utf8.valid bs = true) (k k' : StrKind) (n : Nat)
    (hn : bs.length ≤ n) :
    EncodesSame (.str k) ⟨bs, hv⟩ (.str k') ⟨bs, hv⟩ ∧
    EncodesSame (.str k) ⟨bs, hv⟩ (.sizedStr n) ⟨bs, hv, hn⟩ ∧
    EncodesSame (.str k) ⟨bs, hv⟩ (.seq .vec (.num (.int .u8))) (u8s bs) := by
  refine ⟨encodesSame (t := .str k) (t' := .str k') (v := ⟨bs, hv⟩) (v' := ⟨bs, hv⟩) rfl Iff.rfl,
    encodesSame (t := .str k) (t' := .sizedStr n) (v := ⟨bs, hv⟩) (v' := ⟨bs, hv, hn⟩) rfl Iff.rfl,
    encodesSame (t := .str k) (v := ⟨bs, hv⟩) ?_ ?_⟩
  · show leBytes 2 bs.length ++ bs = leBytes 2 (u8s bs).length ++ (u8s bs).flatMap _
    rw [u8s_length, u8s_wire]
  · show bs.length ≤ 65535 ↔ (u8s bs).length ≤ 65535 ∧ ∀ x ∈ u8s bs, True
    rw [u8s_length]
    exact ⟨fun h => ⟨h, fun _ _ => trivial⟩, fun h => h.1⟩

/-- C39. So are `CStr` and `CString`, and the vector of the octets without the final NUL. -/
theorem C39_c_strings (bs : List Byte) (hv : 0 ∉ bs) (k k' : CStrKind) :
    EncodesSame (.cStr k) ⟨bs, hv⟩ (.cStr k') ⟨bs, hv⟩ ∧
    EncodesSame (.cStr k) ⟨bs, hv⟩ (.seq .vec (.num (.int .u8))) (u8s bs) := by
  refine ⟨encodesSame (t := .cStr k) (t' := .cStr k') (v := ⟨bs, hv⟩) (v' := ⟨bs, hv⟩) rfl Iff.rfl,
    encodesSame (t := .cStr k) (v := ⟨bs, hv⟩) ?_ ?_⟩
  · show leBytes 2 bs.length ++ bs = leBytes 2 (u8s bs).length ++ (u8s bs).flatMap _
    rw [u8s_length, u8s_wire]
  · show bs.length ≤ 65535 ↔ (u8s bs).length ≤ 65535 ∧ ∀ x ∈ u8s bs, True
    rw [u8s_length]
    exact ⟨fun h => ⟨h, fun _ _ => trivial⟩, fun h => h.1⟩

/-- C39. So are a value and the value behind a reference, box, arc, rc, cow, cell, lazy cell, atomic,
number wrapper, one-sided range (`Wrap`), mutex, lock or unborrowed `RefCell`. -/
theorem C39_wrappers (t : Ty) (v : t.Val) (w : Wrap) (k : LockKind) (p : Bool) :
    EncodesSame (.wrap w t) v t v ∧ EncodesSame (.lock k t) ⟨p, v⟩ t v ∧
    EncodesSame (.refCell t) ⟨false, v⟩ t v :=
  ⟨encodesSame (t := .wrap w t) (v := v) rfl Iff.rfl,
    encodesSame (t := .lock k t) (v := ⟨p, v⟩) rfl Iff.rfl,
    encodesSame (t := .refCell t) (v := ⟨false, v⟩) rfl ⟨fun h => h.2, fun h => ⟨rfl, h⟩⟩⟩

/-- C39. An array is encoded like as many consecutive fields. -/
theorem C39_array (t : Ty) (n : Nat) (l : List t.Val) (h : l.length = n) :
    EncodesSame (.array t n) ⟨l, h⟩ (.struct (repeatField t l)) (repeatVals t l) := by
  have hr := wireFields_repeat t l
  exact encodesSame (t := .array t n) (v := ⟨l, h⟩) (t' := .struct (repeatField t l)) hr.1.symm
    hr.2.symm

/-- C39. A range is encoded like its two ends as fields; so is an inclusive range. -/
theorem C39_ranges (t : Ty) (a b : t.Val) (e : Bool) :
    EncodesSame (.range t) ⟨a, b⟩ (.struct (.cons t (.cons t .nil))) (a, b, ()) ∧
    EncodesSame (.rangeInclusive t) ⟨a, b, e⟩ (.struct (.cons t (.cons t .nil))) (a, b, ()) := by
  have hw : wire t a ++ wire t b = wire t a ++ (wire t b ++ []) := by rw [List.append_nil]
  exact ⟨encodesSame (t := .range t) (v := ⟨a, b⟩) hw
      ⟨fun h => ⟨h.1, h.2, trivial⟩, fun h => ⟨h.1, h.2.1⟩⟩,
    encodesSame (t := .rangeInclusive t) (v := ⟨a, b, e⟩) hw
      ⟨fun h => ⟨h.1, h.2, trivial⟩, fun h => ⟨h.1, h.2.1⟩⟩⟩

example : EncodesTo (.seq .vec .bool) [(true : Bool)] [1, 0, 1] ∧
    EncodesTo (.sizedSlice .bool 3) ⟨[(true : Bool)], by decide⟩ [1, 0, 1] := by
  have h : EncodesTo (.seq .vec .bool) [(true : Bool)] [1, 0, 1] :=
    encodesTo' (t := .seq .vec .bool) (v := [(true : Bool)]) ⟨by decide, fun _ _ => trivial⟩ rfl
  exact ⟨h, ((C39_sequences .bool [(true : Bool)] .vec .vec 3 (by decide)).2.encodesTo_iff _).mp h⟩

/-- The impls of `DecodeBorrowed<B>` for `T` without a length limit
(oct/src/decode/decode_borrowed/mod.rs:63-87), with how a `T` borrows as a `B`. -/
inductive OwnedForm : (B T : Ty) → (T.Val → B.Val) → Prop
  | refl (t : Ty) : OwnedForm t t id
  | arc (t : Ty) : OwnedForm t (.wrap .arc t) (fun v => v)
  | box (t : Ty) : OwnedForm t (.wrap .box t) (fun v => v)
  | rc (t : Ty) : OwnedForm t (.wrap .rc t) (fun v => v)
  | cString : OwnedForm (.cStr .cStr) (.cStr .cString) (fun v => v)
  | string : OwnedForm (.str .str) (.str .string) (fun v => v)
  | vec (t : Ty) : OwnedForm (.seq .slice t) (.seq .vec t) (fun v => v)

/-- C45. What a borrowed value is encoded as decodes as any of its owned forms, to a value that
borrows as the original (up to what the format does not carry). Missing: parts that do not survive
any round trip, see C09; and sized slices, see `C45_false_sized_slice`. -/
theorem C45_owned_partial (B T : Ty) (borrow : T.Val → B.Val) (hf : OwnedForm B T borrow)
    (hB : B.WF) (b : B.Val) (hs : Supported B b) (w : List Byte) (hw : EncodesTo B b w) :
    ∃ v, Yields T.decode w (.ok v) ∧ borrow v = carried B b := by
  obtain ⟨he, rfl⟩ := encodesTo_iff.mp hw
  cases hf with
  | refl => exact ⟨_, Ty.decode_decodes B hB b hs he, rfl⟩
  | arc => exact ⟨_, Ty.decode_decodes B hB b hs he, rfl⟩
  | box => exact ⟨_, Ty.decode_decodes B hB b hs he, rfl⟩
  | rc => exact ⟨_, Ty.decode_decodes B hB b hs he, rfl⟩
  | cString => exact ⟨_, Ty.decode_decodes (.cStr .cString) hB b hs he, rfl⟩
  | string => exact ⟨_, Ty.decode_decodes (.str .string) hB b hs he, rfl⟩
  | vec t => exact ⟨_, Ty.decode_decodes (.seq .vec t) hB b hs he, rfl⟩

/-- C45 for `SizedStr<N>: DecodeBorrowed<str>` (oct/src/sized_str/code.rs:47): every encoding of a
`str` decodes to the same text, or is refused for being longer than `N`. -/
theorem C45_sized_str (k : StrKind) (n : Nat) (b : (Ty.str k).Val) (w : List Byte)
    (hw : EncodesTo (.str k) b w) :
    (∀ h : b.val.length ≤ n, Yields (Ty.sizedStr n).decode w (.ok ⟨b.val, b.property, h⟩)) ∧
    (n < b.val.length →
      Yields (Ty.sizedStr n).decode w (.err (.badLength (.length n b.val.length)))) := by
  obtain ⟨he, rfl⟩ := encodesTo_iff.mp hw
  constructor
  · intro h
    exact decSizedStr_decodes n ⟨b.val, b.property, h⟩ he
  · intro h
    refine (decUsize_yields b.val.length he).bind ((Yields.read b.val).map ?_)
    have : sizedStrFromUtf8 n b.val = some (.error (.badLength (.length n b.val.length))) := by
      unfold sizedStrFromUtf8
      rw [dif_pos h]
    rw [this]
    exact Yields.fail _

/-- Decoding stops for lack of input at the end of the input. -/
def TakesInput (t : Ty) : Prop :=
  ∀ pre : List Byte, t.decode ⟨pre, pre.length⟩ = (.panic .shortInput, ⟨pre, pre.length⟩)

/-- A type with a value that is encoded as one octet or more needs input. -/
theorem takesInput {t : Ty} (ht : t.WF) {x : t.Val} (hs : Supported t x) {u : List Byte}
    (hx : EncodesTo t x u) (hu : u ≠ []) : TakesInput t := by
  obtain ⟨he, rfl⟩ := encodesTo_iff.mp hx
  obtain ⟨r, n, hn, h1, h2⟩ := t.decode_local []
  have hn0 : n = 0 := Nat.le_zero.mp hn
  subst hn0
  intro pre
  have h3 := h1 pre
  rw [List.append_nil, Nat.add_zero] at h3
  rw [h3]
  apply Classical.byContradiction
  intro hr
  have hr' : r ≠ .panic .shortInput := fun h => hr (by rw [h])
  have h4 := h2 hr' [] (wire t x)
  have d := Ty.decode_decodes t ht x hs he [] []
  rw [List.append_nil] at d
  have h5 := h4.symm.trans d
  have := congrArg Input.pos (Prod.mk.inj h5).2
  simp only [List.length_nil, Nat.zero_add] at this
  exact hu (List.eq_nil_of_length_eq_zero this.symm)

theorem decItems_short {t : Ty} (ht : TakesInput t) {w : t.Val → List Byte} {c : t.Val → t.Val}
    (l : List t.Val) (h : ∀ x ∈ l, Decodes t.decode (w x) (c x)) :
    ∀ (n : Nat) (i : Nat) (pre : List Byte), l.length < n →
      decItems t.decode n i ⟨pre ++ l.flatMap w, pre.length⟩
        = (.panic .shortInput, ⟨pre ++ l.flatMap w, pre.length + (l.flatMap w).length⟩) := by
  induction l with
  | nil =>
    intro n i pre hn
    cases n with
    | zero => exact absurd hn (Nat.lt_irrefl 0)
    | succ n =>
      show Dec.bind (t.decode.mapErr _) _ _ = _
      unfold Dec.bind Dec.mapErr
      rw [List.flatMap_nil, List.append_nil, ht pre]
      rfl
  | cons a l ih =>
    intro n i pre hn
    cases n with
    | zero => exact absurd hn (Nat.not_lt_zero _)
    | succ n =>
      have h1 := ((h a (by simp)).mapErr (fun e => .badItem (.item i e))) pre (l.flatMap w)
      have h2 := ih (fun x hx => h x (by simp [hx])) n (i + 1) (pre ++ w a) (by simpa using hn)
      rw [List.append_assoc, List.length_append] at h2
      show Dec.bind (t.decode.mapErr _) _ _ = _
      unfold Dec.bind
      rw [List.flatMap_cons, h1]
      show Dec.bind (decItems t.decode n (i + 1)) _ _ = _
      unfold Dec.bind
      rw [h2, List.length_append, Nat.add_assoc]

/-- C45 is false of `SizedSlice<T, N>: DecodeBorrowed<[T]>` (oct/src/sized_slice/code.rs:50): no
encoding of a slice of fewer than `N` items decodes on its own (for any item type that has a value
`x` encoded as one octet or more). -/
theorem C45_false_sized_slice (t : Ty) (ht : t.WF) (x : t.Val) (hs : Supported t x) (u : List Byte)
    (hx : EncodesTo t x u) (hu : u ≠ []) (n : Nat)
    (b : List t.Val) (hb : ∀ x ∈ b, Supported t x) (w : List Byte)
    (hw : EncodesTo (.seq .slice t) b w) (hn : b.length < n) :
    (Ty.sizedSlice t n).decode (Input.new w) = (.panic .shortInput, ⟨w, w.length⟩) := by
  have hi := takesInput ht hs hx hu
  obtain ⟨he, rfl⟩ := encodesTo_iff.mp hw
  have hx : ∀ x ∈ b, Decodes t.decode (wire t x) (carried t x) :=
    fun x hx => Ty.decode_decodes t ht x (hb x hx) (he.2 x hx)
  have h1 := decUsize_yields b.length he.1 [] (b.flatMap (wire t))
  have h2 := decItems_short hi b hx n 0 (leBytes 2 b.length) hn
  show decSizedSlice t.decode n ⟨leBytes 2 b.length ++ b.flatMap (wire t), 0⟩ = (_,
    (⟨leBytes 2 b.length ++ b.flatMap (wire t), (leBytes 2 b.length ++ b.flatMap (wire t)).length⟩ : Input))
  unfold decSizedSlice
  show Dec.bind decUsize _ _ = _
  unfold Dec.bind
  rw [show decUsize ⟨leBytes 2 b.length ++ b.flatMap (wire t), 0⟩
    = (.ok b.length, ⟨leBytes 2 b.length ++ b.flatMap (wire t), (leBytes 2 b.length).length⟩) by
      simpa using h1]
  simp only
  rw [if_neg (by omega)]
  show Dec.bind (decItems t.decode n 0) _ _ = _
  unfold Dec.bind
  rw [h2, List.length_append]
  rfl

/-- C45 for sized slices, as far as it holds: encodings of slices of exactly `N` items, or of at most `N`
items without octets, decode, and those of longer ones are refused. Missing: shorter ones, see
`C45_false_sized_slice`. -/
theorem C45_sized_slice_partial (k : SeqKind) (t : Ty) (ht : t.WF) (n : Nat) (b : List t.Val)
    (w : List Byte) (hw : EncodesTo (.seq k t) b w) :
    ((∀ x ∈ b, Supported t x) → b.length ≤ n → (b.length = n ∨ ¬ Eats t) → ∃ v : (Ty.sizedSlice t n).Val,
      Yields (Ty.sizedSlice t n).decode w (.ok v) ∧ v.val = b.map (carried t)) ∧
    (n < b.length → ∃ w' rest, w = w' ++ rest ∧ w'.length = 2 ∧
      Yields (Ty.sizedSlice t n).decode w' (.err (.badLength (.length n b.length)))) := by
  obtain ⟨he, rfl⟩ := encodesTo_iff.mp hw
  constructor
  · intro hb hle hn
    exact ⟨_, Ty.decode_decodes (.sizedSlice t n) ht ⟨b, hle⟩ ⟨hn, hb⟩ he, rfl⟩
  · intro hn
    refine ⟨leBytes 2 b.length, b.flatMap (wire t), rfl, leBytes_length _ _, ?_⟩
    refine (decUsize_yields b.length he.1).map ?_
    rw [if_pos hn]
    exact Yields.fail _

example : ∃ (x : (Ty.num (.int .u8)).Val) (u : List Byte), EncodesTo (.num (.int .u8)) x u ∧ u ≠ [] :=
  ⟨7#8, [7], encodesTo' (t := .num (.int .u8)) (v := 7#8) trivial rfl, by decide⟩
example : OwnedForm (.seq .slice .bool) (.seq .vec .bool) (fun v => v) := .vec .bool

/-- C46 for sized strings: a sized string of capacity `M` decodes whatever one of capacity `N` is
encoded as, to the same text, or reports that it is too long. -/
theorem C46_sized_str (m n : Nat) (v : (Ty.sizedStr n).Val) (w : List Byte)
    (hw : EncodesTo (.sizedStr n) v w) :
    (∀ h : v.val.length ≤ m, Yields (Ty.sizedStr m).decode w (.ok ⟨v.val, v.property.1, h⟩)) ∧
    (m < v.val.length →
      Yields (Ty.sizedStr m).decode w (.err (.badLength (.length m v.val.length)))) :=
  C45_sized_str .str m ⟨v.val, v.property.1⟩ w
    (((C39_texts v.val v.property.1 .str .str n v.property.2).2.1.encodesTo_iff w).mpr hw)

/-- C46 for sized slices, as far as it holds: if the length is exactly `M`, or at most that with items
without octets, the same items are decoded, and if it is greater it is reported. Missing: smaller lengths, see `C46_false_sized_slice`. -/
theorem C46_sized_slice_partial (t : Ty) (ht : t.WF) (m n : Nat) (v : (Ty.sizedSlice t n).Val)
    (w : List Byte) (hw : EncodesTo (.sizedSlice t n) v w) :
    ((∀ x ∈ v.val, Supported t x) → v.val.length ≤ m → (v.val.length = m ∨ ¬ Eats t) → ∃ v' : (Ty.sizedSlice t m).Val,
      Yields (Ty.sizedSlice t m).decode w (.ok v') ∧ v'.val = v.val.map (carried t)) ∧
    (m < v.val.length → ∃ w' rest, w = w' ++ rest ∧ w'.length = 2 ∧
      Yields (Ty.sizedSlice t m).decode w' (.err (.badLength (.length m v.val.length)))) :=
  C45_sized_slice_partial .slice t ht m v.val w
    (((C39_sequences t v.val .slice .slice n v.property).2.encodesTo_iff w).mpr hw)

/-- C46 is false of sized slices shorter than `M`: no such encoding decodes on its own (for any item
type that has a value `x` encoded as one octet or more). -/
theorem C46_false_sized_slice (t : Ty) (ht : t.WF) (x : t.Val) (hs : Supported t x) (u : List Byte)
    (hx : EncodesTo t x u) (hu : u ≠ []) (m n : Nat)
    (v : (Ty.sizedSlice t n).Val) (hv : ∀ x ∈ v.val, Supported t x) (w : List Byte)
    (hw : EncodesTo (.sizedSlice t n) v w) (hm : v.val.length < m) :
    (Ty.sizedSlice t m).decode (Input.new w) = (.panic .shortInput, ⟨w, w.length⟩) :=
  C45_false_sized_slice t ht x hs u hx hu m v.val hv w
    (((C39_sequences t v.val .slice .slice n v.property).2.encodesTo_iff w).mpr hw) hm

example : ∃ (v : (Ty.sizedSlice (.num (.int .u8)) 3).Val) (w : List Byte),
    EncodesTo (.sizedSlice (.num (.int .u8)) 3) v w ∧ v.val.length = 2 :=
  ⟨⟨[1#8, 2#8], by decide⟩, _, encodesTo (t := .sizedSlice (.num (.int .u8)) 3)
    (v := ⟨[1#8, 2#8], by decide⟩) ⟨by decide, fun _ _ => trivial⟩, rfl⟩

end Oct.Props
