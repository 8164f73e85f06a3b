import Verif.Proofs.CustomMaps
import Verif.Props.Custom
/-
C110, C134: hash maps and sets whose keys and values have impls by others.
-/
namespace Oct.Props
open Oct Spec
set_option linter.unusedVariables false

/-- `==` by the last decimal digit. -/
def sameDigit (a b : Nat) : Bool := a % 10 == b % 10

theorem sameDigit_lawful : Lawful sameDigit := by
  refine ⟨fun a => ?_, fun a b => ?_, fun a b c => ?_⟩ <;> simp only [sameDigit, beq_iff_eq] <;> omega

/-- `Foo` as a key, `==` by the first field. -/
def fooKey : KeyImpl where
  toImpl := fooImpl
  same := fun a b => (show Foo from a).bar == (show Foo from b).bar

/-- C110, hash maps: keys and values are encoded in the order of iteration, the value of an entry right
after its key, up to the first that is not; the error is as it is, without an index, and the stream is as
this call left it. -/
theorem C110_map (K : KeyImpl) (t : Open) (v : (Open.hashMap K t).Val) (o : Output) :
    (∃ o', Calls id (entryCalls K.encode t.encode v.val) o o' ∧
      (Open.hashMap K t).encode v o = (.ok (), o')) ∨
    ∃ before m after o1 r o2, entryCalls K.encode t.encode v.val = before ++ m :: after ∧
      Calls id before o o1 ∧ m o1 = (r, o2) ∧ r ≠ .ok () ∧
      (Open.hashMap K t).encode v o = (r, o2) := by
  have e : (Open.hashMap K t).encode v = inTurn (entryCalls K.encode t.encode v.val) :=
    encHashMap_inTurn K.encode t.encode v.val
  rw [e]
  exact inTurn_calls _ o

/-- C110, hash sets: the same. -/
theorem C110_set (K : KeyImpl) (v : (Open.hashSet K).Val) (o : Output) :
    (∃ o', Calls id (v.val.map K.encode) o o' ∧ (Open.hashSet K).encode v o = (.ok (), o')) ∨
    ∃ before m after o1 r o2, v.val.map K.encode = before ++ m :: after ∧
      Calls id before o o1 ∧ m o1 = (r, o2) ∧ r ≠ .ok () ∧ (Open.hashSet K).encode v o = (r, o2) := by
  have e : (Open.hashSet K).encode v = inTurn (v.val.map K.encode) := encHashSet_inTurn K.encode v.val
  rw [e]
  exact inTurn_calls _ o

example : encHashMap pickyEnc pickyEnc [(1, 2), (3, 7), (8, 4)] (Output.new [0, 0, 0, 0, 0])
    = (pickyEnc 7 ⟨[1, 2, 3, 0, 0], 3⟩) := by decide

/-- C110, decoding a hash map: after the number of entries, key and value of each are decoded in order,
up to the first that is not, which is reported with the index of the entry. -/
theorem C110_map_decoded (K : KeyImpl) (t : Open) (i i0 : Input) (n : Nat)
    (hn : decUsize i = (.ok n, i0)) :
    (∃ l i', l.length = n ∧ Gets (decEntry K.decode t.decode) l i0 i' ∧
      ∃ m, (Open.hashMap K t).decode i = (.ok m, i')) ∨
    ∃ before i1 r i2, before.length < n ∧ Gets (decEntry K.decode t.decode) before i0 i1 ∧
      decEntry K.decode t.decode i1 = (r, i2) ∧
      ∃ r', reported (fun e => .badItem (.item before.length e)) r = some r' ∧
        (Open.hashMap K t).decode i = (r', i2) := by
  rcases decTable_gets K.same K.decode t.decode i i0 n hn with ⟨l, i', h0, h1, m, _, h2⟩ | h
  · exact .inl ⟨l, i', h0, h1, m, h2⟩
  · exact .inr h

/-- C110, decoding a hash set: the same. -/
theorem C110_set_decoded (K : KeyImpl) (i i0 : Input) (n : Nat) (hn : decUsize i = (.ok n, i0)) :
    (∃ l i', l.length = n ∧ Gets K.decode l i0 i' ∧ ∃ m, (Open.hashSet K).decode i = (.ok m, i')) ∨
    ∃ before i1 r i2, before.length < n ∧ Gets K.decode before i0 i1 ∧ K.decode i1 = (r, i2) ∧
      ∃ r', reported (fun e => .badItem (.item before.length e)) r = some r' ∧
        (Open.hashSet K).decode i = (r', i2) := by
  rcases decTableSet_gets K.same K.decode i i0 n hn with ⟨l, i', h0, h1, m, _, h2⟩ | h
  · exact .inl ⟨l, i', h0, h1, m, h2⟩
  · exact .inr h

example : decUsize (Input.new [2, 0, 1, 2, 3, 7]) = (.ok 2, ⟨[2, 0, 1, 2, 3, 7], 2⟩) ∧
    decTable sameDigit pickyDec pickyDec (Input.new [2, 0, 1, 2, 3, 7])
      = (.err (.badItem (.item 1 .nonZero)), ⟨[2, 0, 1, 2, 3, 7], 6⟩) := by
  refine ⟨by decide, rfl⟩

/-- C134. Whatever `==` and the impls of the keys do: of what a hash map has decoded, each key and each
value was decoded in that call, there are no more entries than were announced, and no key is taken for an
earlier one. If `==` is an equivalence, the keys are the first of those that are the same, and each has
the value that came last with a key that is the same. If no two keys are the same, the entries are
those decoded. -/
theorem C134_decoded (K : KeyImpl) (t : Open) (i i' : Input) (m : (Open.hashMap K t).Val)
    (h : (Open.hashMap K t).decode i = (.ok m, i')) :
    ∃ n i0 l, decUsize i = (.ok n, i0) ∧ l.length = n ∧ Gets (decEntry K.decode t.decode) l i0 i' ∧
      m.val.length ≤ n ∧ Distinct K.same (m.val.map Prod.fst) ∧
      (∀ p ∈ m.val, p.1 ∈ l.map Prod.fst ∧ p.2 ∈ l.map Prod.snd) ∧
      (Lawful K.same → m.val.map Prod.fst = firstOnes K.same (l.map Prod.fst) ∧
        ∀ p ∈ m.val, latest K.same p.1 l = some p.2) ∧
      (Distinct K.same (l.map Prod.fst) → m.val = l) := by
  have hu : ∃ n i0, decUsize i = (.ok n, i0) := by
    change Dec.bind _ _ i = _ at h
    unfold Dec.bind at h
    generalize decUsize i = x at h
    obtain ⟨r, i0⟩ := x
    cases r with
    | ok n => exact ⟨n, i0, rfl⟩
    | _ => exact nomatch h
  obtain ⟨n, i0, hn⟩ := hu
  rcases decTable_gets K.same K.decode t.decode i i0 n hn with
    ⟨l, i1, h0, h1, m', h2, h3⟩ | ⟨b, i1, r, i2, h0, h1, h2, r', h3, h4⟩
  · have h' : decTable K.same K.decode t.decode i = (.ok m, i') := h
    rw [h'] at h3
    obtain ⟨e1, e2⟩ := Prod.mk.inj h3
    cases e2
    cases e1
    have hs := inserted_sub K.same [] l
    refine ⟨n, i0, l, hn, h0, h1, ?_, m.property, ?_, fun hL => ⟨?_, ?_⟩, fun hd => ?_⟩
    · rw [h2]; have := hs.1; simp only [List.length_nil] at this; omega
    · rw [h2]; exact hs.2
    · rw [h2, inserted_fst]; exact added_nil hL _
    · rw [h2]; exact inserted_latest hL l
    · rw [h2]; exact inserted_new K.same [] l hd
  · have h' : decTable K.same K.decode t.decode i = (.ok m, i') := h
    rw [h'] at h4
    obtain ⟨e1, e2⟩ := Prod.mk.inj h4
    subst e1
    cases r <;> exact nomatch h3

/-- C134. The same of a hash set. -/
theorem C134_decoded_set (K : KeyImpl) (i i' : Input) (m : (Open.hashSet K).Val)
    (h : (Open.hashSet K).decode i = (.ok m, i')) :
    ∃ n i0 l, decUsize i = (.ok n, i0) ∧ l.length = n ∧ Gets K.decode l i0 i' ∧
      Distinct K.same m.val ∧ (Lawful K.same → m.val = firstOnes K.same l) ∧
      (Distinct K.same l → m.val = l) := by
  have hu : ∃ n i0, decUsize i = (.ok n, i0) := by
    change Dec.bind _ _ i = _ at h
    unfold Dec.bind at h
    generalize decUsize i = x at h
    obtain ⟨r, i0⟩ := x
    cases r with
    | ok n => exact ⟨n, i0, rfl⟩
    | _ => exact nomatch h
  obtain ⟨n, i0, hn⟩ := hu
  rcases decTableSet_gets K.same K.decode i i0 n hn with
    ⟨l, i1, h0, h1, m', h2, h3⟩ | ⟨b, i1, r, i2, h0, h1, h2, r', h3, h4⟩
  · have h' : decTableSet K.same K.decode i = (.ok m, i') := h
    rw [h'] at h3
    obtain ⟨e1, e2⟩ := Prod.mk.inj h3
    cases e2
    cases e1
    refine ⟨n, i0, l, hn, h0, h1, m.property, fun hL => ?_, fun hd => ?_⟩
    · rw [h2]; exact added_nil hL _
    · rw [h2]; exact added_new K.same [] l hd
  · have h' : decTableSet K.same K.decode i = (.ok m, i') := h
    rw [h'] at h4
    obtain ⟨e1, e2⟩ := Prod.mk.inj h4
    subst e1
    cases r <;> exact nomatch h3

/-- The first key and the last value stay. -/
example : ((decTable sameDigit pickyDec pickyDec (Input.new [3, 0, 1, 2, 5, 6, 11, 9])).1.map
    Subtype.val) = .ok [(1, 9), (5, 6)] ∧ firstOnes sameDigit [1, 5, 11] = [1, 5] ∧
    latest sameDigit 1 [(1, 2), (5, 6), (11, 9)] = some 9 ∧ Lawful sameDigit :=
  ⟨rfl, rfl, rfl, sameDigit_lawful⟩

/-- C134. If the impls of keys and values keep their promises, then any entries with their number before
them are read as just that many entries. -/
theorem C134_read (P : Promise) (K : KeyImpl) (t : Open) (hK : P.KeptDec K.toImpl)
    (ht : Authors P.KeptDec t) (hw : t.WF) (l : List (K.Val × t.Val)) (hl : l.length ≤ 65535)
    (he : ∀ p ∈ l, P.ok K.toImpl p.1 ∧ OpenEncodable P t p.2 ∧ Full t p.2) :
    ∃ m : (Open.hashMap K t).Val, Reads (Open.hashMap K t).decode
        (leBytes 2 l.length ++ l.flatMap fun p => P.wire K.toImpl p.1 ++ openWire P t p.2) m ∧
      (Distinct K.same (l.map fun p => P.back K.toImpl p.1) →
        m.val = l.map fun p => (P.back K.toImpl p.1, openCarried P t p.2)) := by
  have h : ∀ p ∈ l, Decodes (decEntry K.decode t.decode) (P.wire K.toImpl p.1 ++ openWire P t p.2)
      (P.back K.toImpl p.1, openCarried P t p.2) := by
    intro p hp
    obtain ⟨h1, h2, h3⟩ := he p hp
    exact (show Decodes K.decode _ _ from hK p.1 h1).bind
      ((Open.decode_decodes P t ht hw p.2 h3 h2).map rfl)
  refine ⟨_, decTable_decodes K.same (w := fun p => P.wire K.toImpl p.1 ++ openWire P t p.2)
    (c := fun p => (P.back K.toImpl p.1, openCarried P t p.2)) l hl h, fun hd => ?_⟩
  refine inserted_new K.same [] _ ?_
  simpa [List.map_map, Function.comp_def] using hd

example : fooPromise.KeptDec fooKey.toImpl ∧ Authors fooPromise.KeptDec foosTy ∧ foosTy.WF ∧
    (∀ p ∈ [(foo12, ([none, some foo12] : foosTy.Val))], fooPromise.ok fooKey.toImpl p.1 ∧
      OpenEncodable fooPromise foosTy p.2 ∧ Full foosTy p.2) ∧
    Distinct fooKey.same ([(foo12, ([none, some foo12] : foosTy.Val))].map fun p =>
      fooPromise.back fooKey.toImpl p.1) := by
  refine ⟨fooPromise_decode, fooPromise_decode, trivial, fun p hp => ?_, List.pairwise_singleton _ _⟩
  rw [List.mem_singleton.1 hp]
  exact ⟨trivial, ⟨by decide, fun x _ => by cases x <;> exact trivial⟩,
    fun x _ => by cases x <;> exact trivial⟩

/-- C134 is false of the empty map and the empty set, whatever the keys and values: encoding them writes
nothing, and nothing cannot be decoded. -/
theorem C134_false_empty (P : Promise) (K : KeyImpl) (t : Open) :
    openWire P (.hashMap K t) ⟨[], List.Pairwise.nil⟩ = [] ∧
    ¬ Reads (Open.hashMap K t).decode (openWire P (.hashMap K t) ⟨[], List.Pairwise.nil⟩)
      ⟨[], List.Pairwise.nil⟩ ∧
    ¬ Reads (Open.hashSet K).decode (openWire P (.hashSet K) ⟨[], List.Pairwise.nil⟩)
      ⟨[], List.Pairwise.nil⟩ := by
  refine ⟨rfl, fun h => ?_, fun h => ?_⟩ <;>
  · have := h [] []
    have := congrArg Prod.fst this
    exact nomatch this

/-- `u8` as keys. -/
def octetKey : KeyImpl where
  Val := BitVec 8
  encode := fun b => encNum 1 b.toNat
  decode := do
    let n ← decNum 1
    pure (BitVec.ofNat 8 n)
  maxSize := 1
  encInto := EncErr.toGeneric
  decInto := DecErr.toGeneric
  same := fun a b => a == b

/-- C134 is false of others, too: a map of one entry is encoded and decoded without an error, and is empty
then. -/
theorem C134_false_lost (buf : List Byte) (h : 2 ≤ buf.length) :
    ∃ o', (Open.hashMap octetKey (.impl octetKey.toImpl)).encode
        ⟨[((0 : BitVec 8), (0 : BitVec 8))], List.pairwise_singleton _ _⟩ (Output.new buf) = (.ok (), o') ∧
      ∃ m, (Open.hashMap octetKey (.impl octetKey.toImpl)).decode (Input.new (o'.buf.take o'.pos))
        = (.ok m, ⟨o'.buf.take o'.pos, o'.pos⟩) ∧ m.val = [] := by
  match buf, h with
  | a :: b :: buf, _ => exact ⟨⟨0 :: 0 :: buf, 2⟩, rfl, ⟨[], List.Pairwise.nil⟩, rfl, rfl⟩

example : (2 : Nat) ≤ [(0 : Byte), 0].length := by decide

end Oct.Props
