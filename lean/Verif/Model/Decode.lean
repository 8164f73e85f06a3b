import Verif.Model.Encode
/-
`Decode`: oct/src/decode/decode/mod.rs, oct/src/sized_slice/code.rs, oct/src/sized_str/code.rs and
the code generated by oct-macros/src/impls/decode_struct.rs and decode_enum.rs.
Line numbers without a file are those of oct/src/decode/decode/mod.rs.
-/
namespace Oct

/-- `impl_numeric!`: 819-834, as a bit pattern of `n` octets. -/
def decNum (n : Nat) : Dec Nat := do
  let data ← Dec.readInto n
  pure (fromLe data)

/-- `u8::decode`, an instance of `impl_numeric!`. -/
def decU8 : Dec Nat := decNum 1

/-- The number that a bit pattern of `n` octets stands for in a (signed or unsigned) type. -/
def ofBits (signed : Bool) (n : Nat) (x : Nat) : Int :=
  if signed = true ∧ 2 ^ (8 * n - 1) ≤ x then (x : Int) - (2 : Int) ^ (8 * n) else x

/-- `usize::decode`: 769-777 (`u16::decode`, then `as usize`). -/
def decUsize : Dec Nat := decNum 2

/-- `isize::decode`: 428-437 (`i16::decode`, then `as isize`). -/
def decIsize : Dec Int := do
  let x ← decNum 2
  pure (ofBits true 2 x)

/-- `decode` of a primitive integer, as a number. Used for `NonZero` (859-881) and discriminants. -/
def decRepr : Repr → Dec Int
  | .int k => do
    let x ← decNum k.bytes
    pure (ofBits k.signed k.bytes x)
  | .usize => do
    let x ← decUsize
    pure (x : Int)
  | .isize => decIsize

/-- `bool::decode`: 168-181. -/
def decBool : Dec Bool := do
  let value ← decU8
  pure (value != 0)

/-- `char::decode`: 240-256. `from_u32_unchecked` is undefined unless the number is a Unicode scalar
value; Lean's `Nat.isValidChar` is exactly that condition. -/
def decChar : Dec Char := do
  let cp ← decNum 4
  if cp ≤ 0xD7FF ∨ (0xDE00 ≤ cp ∧ cp ≤ 0x10FFFF) then
    if h : cp.isValidChar then pure (Char.ofNatAux cp h) else Dec.ub .invalidChar
  else
    Dec.fail (.char cp)

/-- `NonZero::decode`: 859-881. -/
def decNonZero (r : Repr) : Dec {x : Int // r.InRange x ∧ x ≠ 0} := do
  let value ← decRepr r
  if value = 0 then Dec.fail .nonZero
  else if h : r.InRange value ∧ value ≠ 0 then pure ⟨value, h⟩
  else Dec.panic .unreachable

/-- The loop `for i in 0..n { decode(input).map_err(|e| BadItem(ItemDecodeError { index: i, .. }))? }`
of 135-140 (arrays), 450-455 (`LinkedList`), 791-798 (`Vec`) and
oct/src/sized_slice/code.rs:39-44. Starts at index `i`. -/
def decItems {α : Type} (dec : Dec α) : (n : Nat) → (i : Nat) → Dec (Items α n)
  | 0, _ => pure ⟨[], rfl⟩
  | n + 1, i => do
    let v ← dec.mapErr (fun e => .badItem (.item i e))
    let vs ← decItems dec n (i + 1)
    pure ⟨v :: vs.val, by simp [vs.property]⟩

/-- `[T; N]::decode`: 126-152. -/
def decArray {α : Type} (dec : Dec α) (n : Nat) : Dec (Items α n) := decItems dec n 0

/-- `Vec::decode`: 781-805, and `LinkedList::decode`: 441-459. -/
def decSeq {α : Type} (dec : Dec α) : Dec (List α) := do
  let len ← decUsize
  let vs ← decItems dec len 0
  pure vs.val

/-- `SizedSlice::decode`: oct/src/sized_slice/code.rs:29-48. The loop runs over the whole buffer,
that is `N` times; the value is then the first `len` elements. -/
def decSizedSlice {α : Type} (dec : Dec α) (n : Nat) : Dec {l : List α // l.length ≤ n} := do
  let len ← decUsize
  if len > n then Dec.fail (.badLength (.length n len))
  else do
    let vs ← decItems dec n 0
    pure ⟨vs.val.take len, by simp [List.length_take, vs.property]; omega⟩

/-- `HashMap::insert`: replaces the value of an equal key, else adds the entry. SIMPLIFICATION: the
entry is added at the end of the iteration order. -/
def mapInsert {α β : Type} [DecidableEq α] (k : α) (v : β) : List (α × β) → List (α × β)
  | [] => [(k, v)]
  | (k', v') :: l => if k' = k then (k', v) :: l else (k', v') :: mapInsert k v l

theorem mapInsert_mem {α β : Type} [DecidableEq α] (k : α) (v : β) (l : List (α × β)) (x : α) :
    x ∈ (mapInsert k v l).map Prod.fst ↔ x = k ∨ x ∈ l.map Prod.fst := by
  induction l with
  | nil => simp [mapInsert]
  | cons p l ih =>
    obtain ⟨k', v'⟩ := p
    unfold mapInsert
    split
    · rename_i h; subst h; simp
    · simp only [List.map_cons, List.mem_cons, ih]
      constructor <;> (intro h; rcases h with h | h | h <;> simp [h])

theorem mapInsert_nodup {α β : Type} [DecidableEq α] (k : α) (v : β) (l : List (α × β))
    (h : (l.map Prod.fst).Nodup) : ((mapInsert k v l).map Prod.fst).Nodup := by
  induction l with
  | nil => simp [mapInsert]
  | cons p l ih =>
    obtain ⟨k', v'⟩ := p
    simp only [List.map_cons, List.nodup_cons] at h
    unfold mapInsert
    split
    · simpa using h
    · rename_i hne
      simp only [List.map_cons, List.nodup_cons]
      refine ⟨?_, ih h.2⟩
      intro hm
      rcases (mapInsert_mem k v l k').1 hm with h' | h'
      · exact hne h'
      · exact h.1 h'

/-- `HashSet::insert`. SIMPLIFICATION: as for `mapInsert`. -/
def setInsert {α : Type} [DecidableEq α] (k : α) (l : List α) : List α :=
  if k ∈ l then l else l ++ [k]

theorem setInsert_nodup {α : Type} [DecidableEq α] (k : α) (l : List α) (h : l.Nodup) :
    (setInsert k l).Nodup := by
  unfold setInsert
  split
  · exact h
  · rename_i hk
    rw [List.nodup_append]
    refine ⟨h, by simp, ?_⟩
    intro a ha b hb hab
    simp at hb
    subst hb; subst hab
    exact hk ha

/-- The loop of `HashMap::decode`: 336-344. -/
def decMapLoop {α β : Type} [DecidableEq α] (decK : Dec α) (decV : Dec β) :
    (n : Nat) → (i : Nat) → MapVal α β → Dec (MapVal α β)
  | 0, _, m => pure m
  | n + 1, i, m => do
    let k ← decK.mapErr (fun e => .badItem (.item i e))
    let v ← decV.mapErr (fun e => .badItem (.item i e))
    decMapLoop decK decV n (i + 1) ⟨mapInsert k v m.val, mapInsert_nodup k v m.val m.property⟩

/-- `HashMap::decode`: 322-348. -/
def decHashMap {α β : Type} [DecidableEq α] (decK : Dec α) (decV : Dec β) : Dec (MapVal α β) := do
  let len ← decUsize
  decMapLoop decK decV len 0 ⟨[], List.nodup_nil⟩

/-- The loop of `HashSet::decode`: 365-370. -/
def decSetLoop {α : Type} [DecidableEq α] (decK : Dec α) :
    (n : Nat) → (i : Nat) → SetVal α → Dec (SetVal α)
  | 0, _, s => pure s
  | n + 1, i, s => do
    let k ← decK.mapErr (fun e => .badItem (.item i e))
    decSetLoop decK n (i + 1) ⟨setInsert k s.val, setInsert_nodup k s.val s.property⟩

/-- `HashSet::decode`: 352-374. -/
def decHashSet {α : Type} [DecidableEq α] (decK : Dec α) : Dec (SetVal α) := do
  let len ← decUsize
  decSetLoop decK len 0 ⟨[], List.nodup_nil⟩

/-- `Option::decode`: 475-492. -/
def decOption {α : Type} (dec : Dec α) : Dec (Option α) := do
  let sign ← decBool
  if sign then do
    let v ← dec
    pure (some v)
  else pure none

/-- `Result::decode`: 601-627. -/
def decResult {α β : Type} (decT : Dec α) (decE : Dec β) : Dec (ResultVal α β) := do
  let sign ← decBool
  if sign then do
    let v ← decE.mapErr .badField
    pure (.err v)
  else do
    let v ← decT.mapErr .badField
    pure (.ok v)

/-- `Bound::decode`: 183-212. -/
def decBound {α : Type} (dec : Dec α) : Dec (BoundVal α) := do
  let discriminant ← decU8
  if discriminant = 0 then do
    let b ← dec.mapErr .badField
    pure (.included b)
  else if discriminant = 1 then do
    let b ← dec.mapErr .badField
    pure (.excluded b)
  else if discriminant = 2 then pure .unbounded
  else Dec.fail (.unassigned discriminant)

/-- `Range::decode`: 512-522. -/
def decRange {α : Type} (dec : Dec α) : Dec (RangeVal α) := do
  let start ← dec
  let stop ← dec
  pure ⟨start, stop⟩

/-- `RangeInclusive::decode`: 544-554. `start..=end` is a fresh, not exhausted range. -/
def decRangeInclusive {α : Type} (dec : Dec α) : Dec (RangeInclusiveVal α) := do
  let start ← dec
  let stop ← dec
  pure ⟨start, stop, false⟩

/-- `Mutex::decode` (463-473) and `RwLock::decode` (631-641). -/
def decLock {α : Type} (dec : Dec α) : Dec (LockVal α) := do
  let v ← dec
  pure ⟨false, v⟩

/-- `RefCell::decode`: 589-599. -/
def decRefCell {α : Type} (dec : Dec α) : Dec (RefCellVal α) := do
  let v ← dec
  pure ⟨false, v⟩

/-- `Duration::new(secs, nanos)`: carries whole seconds out of `nanos`, and panics if that
overflows `secs` (std documentation). -/
def durationNew (secs nanos : Nat) : Option DurationVal :=
  if secs + nanos / nanosPerSec < 2 ^ 64 then
    some { secs := BitVec.ofNat 64 (secs + nanos / nanosPerSec)
           nanos := nanos % nanosPerSec
           nanos_lt := Nat.mod_lt _ (by decide) }
  else none

/-- `Duration::decode`: 307-318. -/
def decDuration : Dec DurationVal := do
  let secs ← decNum 8
  let nanos ← decNum 4
  match durationNew secs nanos with
  | some d => pure d
  | none => Dec.panic .durationOverflow

/-- `SystemTime::decode`: 739-758. `checked_add` and `checked_sub` fail when the result is out of the
platform's range. -/
def decSystemTime (p : TimePlatform) : Dec {ns : Int // p.lo ≤ ns ∧ ns ≤ p.hi} := do
  let x ← decNum 8
  let time := ofBits true 8 x
  if hp : time > 0 then
    if h : time * nanosPerSec ≤ p.hi then
      pure ⟨time * nanosPerSec, by have := p.lo_le; have : (0:Int) ≤ time * nanosPerSec := by
                                     apply Int.mul_nonneg <;> omega
                                   omega, h⟩
    else Dec.fail (.systemTime time)
  else
    if h : p.lo ≤ 0 - (time.natAbs : Int) * nanosPerSec then
      pure ⟨0 - (time.natAbs : Int) * nanosPerSec, h, by
        have := p.le_hi
        have : (0:Int) ≤ (time.natAbs : Int) * nanosPerSec := by apply Int.mul_nonneg <;> omega
        omega⟩
    else Dec.fail (.systemTime time)

/-- `toLe` gives as many octets as asked for. -/
theorem toLe_length (n x : Nat) : (toLe n x).length = n := by
  induction n generalizing x with
  | zero => rfl
  | succ n ih => simp [toLe, ih]

/-- `Ipv4Addr::decode`: 404-414 (`u32::decode`, then `from_bits`). -/
def decIpv4 : Dec (Items Byte 4) := do
  let x ← decNum 4
  pure ⟨toBe 4 x, by simp [toBe, toLe_length]⟩

/-- `Ipv6Addr::decode`: 416-426 (`u128::decode`, then `from_bits`). -/
def decIpv6 : Dec (Items Byte 16) := do
  let x ← decNum 16
  pure ⟨toBe 16 x, by simp [toBe, toLe_length]⟩

/-- `IpAddr::decode`: 385-402. -/
def decIpAddr : Dec IpAddrVal := do
  let discriminant ← decU8
  if discriminant = 4 then do
    let a ← decIpv4
    pure (.v4 a)
  else if discriminant = 6 then do
    let a ← decIpv6
    pure (.v6 a)
  else Dec.fail (.unassigned discriminant)

/-- `SocketAddrV4::decode`: 671-682. -/
def decSocketAddrV4 : Dec SocketAddrV4Val := do
  let ip ← decIpv4
  let port ← decNum 2
  pure ⟨ip, BitVec.ofNat 16 port⟩

/-- `SocketAddrV6::decode`: 684-697. -/
def decSocketAddrV6 : Dec SocketAddrV6Val := do
  let ip ← decIpv6
  let port ← decNum 2
  let flowInfo ← decNum 4
  let scopeId ← decNum 4
  pure ⟨ip, BitVec.ofNat 16 port, BitVec.ofNat 32 flowInfo, BitVec.ofNat 32 scopeId⟩

/-- `SocketAddr::decode`: 655-669. -/
def decSocketAddr : Dec SocketAddrVal := do
  let discriminant ← decU8
  if discriminant = 4 then do
    let a ← decSocketAddrV4
    pure (.v4 a)
  else if discriminant = 6 then do
    let a ← decSocketAddrV6
    pure (.v6 a)
  else Dec.fail (.unassigned discriminant)

/-- `String::decode`: 701-735. -/
def decString : Dec {bs : List Byte // Utf8.valid bs = true} := do
  let len ← decUsize
  let data ← Dec.read len
  match h : Utf8.check data with
  | none => pure ⟨data, by simp [Utf8.valid, h]⟩
  | some i =>
    match data[i]? with
    | some c => Dec.fail (.badItem (.utf8 c i))
    | none => Dec.panic .indexOutOfBounds

/-- `CString::decode`: 278-305. The loop returns at the first NUL. -/
def decCString : Dec {bs : List Byte // 0 ∉ bs} := do
  let len ← decUsize
  let data ← Dec.read len
  if h : 0 ∉ data then pure ⟨data, h⟩
  else Dec.fail (.cString (data.findIdx (· == 0)))

/-- `SizedStr::from_utf8`: oct/src/sized_str/conv.rs:57-75. The error is that of `SizedStr::decode`
(oct/src/sized_str/code.rs:37-43); `none` is an out-of-bounds panic at conv.rs:65. -/
def sizedStrFromUtf8 (n : Nat) (s : List Byte) :
    Option (Except DecErr {bs : List Byte // Utf8.valid bs = true ∧ bs.length ≤ n}) :=
  if hn : s.length > n then some (.error (.badLength (.length n s.length)))
  else
    match h : Utf8.check s with
    | none => some (.ok ⟨s, by simp [Utf8.valid, h], by omega⟩)
    | some i =>
      match s[i]? with
      | some c => some (.error (.badItem (.utf8 c i)))
      | none => none

/-- `SizedStr::decode`: oct/src/sized_str/code.rs:27-45. -/
def decSizedStr (n : Nat) : Dec {bs : List Byte // Utf8.valid bs = true ∧ bs.length ≤ n} := do
  let len ← decUsize
  let data ← Dec.read len
  match sizedStrFromUtf8 n data with
  | some (.ok s) => pure s
  | some (.error e) => Dec.fail e
  | none => Dec.panic .indexOutOfBounds

mutual

/-- `T::decode`, for every modelled `T`. For types that have `Encode` but no `Decode` (`&T`,
`&mut T`, `[T]`, `str`, `CStr`, `LazyCell`, `LazyLock`) this is the decoding of the corresponding
owned type (`Vec<T>`, `String`, `CString`, `T`), which is what `Cow` uses (260-274); statements about
decoding say nothing about Rust for such types taken alone. -/
def Ty.decode : (t : Ty) → Dec t.Val
  | .num k => do
    let x ← decNum k.bytes
    pure (BitVec.ofNat (8 * k.bytes) x)
  | .bool => decBool
  | .char => decChar
  | .usize => decUsize
  | .isize => decIsize
  | .nonZero r => decNonZero r
  | .unit _ => pure ()
  | .infallible => Dec.panic .infallible
  | .wrap _ t => t.decode
  | .array t n => decArray t.decode n
  | .seq _ t => decSeq t.decode
  | .hashMap k v => @decHashMap _ _ k.decEq k.decode v.decode
  | .hashSet k => @decHashSet _ k.decEq k.decode
  | .option t => decOption t.decode
  | .result t e => decResult t.decode e.decode
  | .bound t => decBound t.decode
  | .range t => decRange t.decode
  | .rangeInclusive t => decRangeInclusive t.decode
  | .lock _ t => decLock t.decode
  | .refCell t => decRefCell t.decode
  | .duration => decDuration
  | .systemTime p => decSystemTime p
  | .ipv4 => decIpv4
  | .ipv6 => decIpv6
  | .ipAddr => decIpAddr
  | .socketAddrV4 => decSocketAddrV4
  | .socketAddrV6 => decSocketAddrV6
  | .socketAddr => decSocketAddr
  | .str _ => decString
  | .cStr _ => decCString
  | .sizedStr n => decSizedStr n
  | .sizedSlice t n => decSizedSlice t.decode n
  | .tuple fs => fs.decode id
  | .struct fs => fs.decode DecErr.toGeneric
  | .enum r vs => do
    let discriminant ← decRepr r
    vs.decode none discriminant

/-- Decodes fields in order, mapping errors with `g`: 848-854 (tuples, `g = id`),
oct-macros/src/impls/decode_struct.rs:29-50, oct-macros/src/impls/decode_enum.rs:39-60. -/
def Fields.decode : (fs : Fields) → (g : DecErr → DecErr) → Dec fs.Val
  | .nil, _ => pure ()
  | .cons t fs, g => do
    let v ← t.decode.mapErr g
    let vs ← fs.decode g
    pure (v, vs)

/-- The `match discriminant` of oct-macros/src/impls/decode_enum.rs:73-77: the first variant with
this discriminant, else `UnassignedDiscriminant`. -/
def Variants.decode : (vs : Variants) → (prev : Option Nat) → (discriminant : Int) → Dec vs.Val
  | .nil, _, x => Dec.fail (.unassigned x)
  | .cons d fs vs, prev, x =>
    if x = (nextDisc prev d : Int) then do
      let v ← fs.decode (fun e => .badField e.toGeneric)
      pure (.inl v)
    else do
      let v ← vs.decode (some (nextDisc prev d)) x
      pure (.inr v)

end

end Oct
