import Verif.Model.SizedStr
/-
Collecting sized slices and sized strings from any iterator: one that may never end, may go on after it has
given `None`, and may panic. Where Verif.Model.SizedSlice and Verif.Model.SizedStr take the items that an
iterator gives, here its `next` is called as the source calls it, and the iterator is left as it is then.

SIMPLIFICATION: what was collected before a panic is not kept (it is leaked or dropped with the frame; see
Verif.Model.Unwind).
-/
namespace Oct

/-- `Iterator::next` of an iterator with the states `σ`. -/
abbrev Source (σ α : Type) := σ → Res Empty (Option α) × σ

/-- The iterator of a list, as `vec::IntoIter` of std. -/
def listSource {α : Type} : Source (List α) α
  | [] => (.ok none, [])
  | a :: l => (.ok (some a), l)

/-- `SizedIter::next` (oct/src/sized_iter/mod.rs:134-145), for items that own something. -/
def SizedIter.source {α : Type} : Source (SizedIter α) α := fun it =>
  match it.next with
  | .ok (x, it') => (.ok x, it')
  | .err e => e.elim
  | .panic p => (.panic p, it)
  | .ub u => (.ub u, it)

namespace SizedSlice
variable {σ α : Type}

/-- The loop of `from_iter`: oct/src/sized_slice/iter.rs:35-40. -/
def fillSource (next : Source σ α) : List (MaybeUninit α) → σ → Res Empty (List (MaybeUninit α) × Nat) × σ
  | [], s => (.ok ([], 0), s)
  | cell :: cells, s =>
    match next s with
    | (.ok none, s') => (.ok (cell :: cells, 0), s')
    | (.ok (some a), s') =>
      match fillSource next cells s' with
      | (.ok (cells', len), s'') => (.ok (some a :: cells', len + 1), s'')
      | (.err e, _) => e.elim
      | (.panic p, s'') => (.panic p, s'')
      | (.ub u, s'') => (.ub u, s'')
    | (.err e, _) => e.elim
    | (.panic p, s') => (.panic p, s')
    | (.ub u, s') => (.ub u, s')

/-- `FromIterator::from_iter` of `SizedSlice<T, N>`, given `by_ref()` of an iterator:
oct/src/sized_slice/iter.rs:29-43. -/
def fromSource (next : Source σ α) (n : Nat) (s : σ) : Res Empty (SizedSlice α) × σ :=
  let (r, s') := fillSource next (uninit n) s
  (r.map fun (buf, len) => { buf := buf, len := len }, s')

/-- `loop { let part: SizedSlice<_, N> = iter.by_ref().collect(); if part.is_empty() { break } .. }`: the
parts. `fuel` is a number of rounds after which the loop would stop. -/
def parts (next : Source σ α) (n : Nat) : (fuel : Nat) → σ → Res Empty (List (SizedSlice α)) × σ
  | 0, s => (.ok [], s)
  | fuel + 1, s =>
    match fromSource next n s with
    | (.ok part, s') =>
      if part.isEmpty then (.ok [], s')
      else
        let (r, s'') := parts next n fuel s'
        (r.map (part :: ·), s'')
    | (.err e, _) => e.elim
    | (.panic p, s') => (.panic p, s')
    | (.ub u, s') => (.ub u, s')

end SizedSlice

namespace SizedStr
variable {σ : Type}

theorem charUtf8_pos (c : Char) : 0 < (charUtf8 c).length := by
  rw [charUtf8, String.length_utf8EncodeChar]
  exact Char.utf8Size_pos c

/-- The loop of `from_iter`: oct/src/sized_str/mod.rs:160-173. It ends, as no char has no octets. -/
def collectSource (next : Source σ Char) (n : Nat) (buf : List Byte) (len : Nat) (s : σ) :
    Res Empty (List Byte × Nat) × σ :=
  match next s with
  | (.ok none, s') => (.ok (buf, len), s')
  | (.ok (some c), s') =>
    let rem := n - len
    let req := (charUtf8 c).length
    if _ : rem < req then (.ok (buf, len), s')
    else
      let start := len
      let stop := start + req
      if stop > buf.length then (.panic .indexOutOfBounds, s')
      else collectSource next n (buf.take start ++ charUtf8 c ++ buf.drop stop) (len + req) s'
  | (.err e, _) => e.elim
  | (.panic p, s') => (.panic p, s')
  | (.ub u, s') => (.ub u, s')
termination_by n - len
decreasing_by
  have := charUtf8_pos c
  omega

/-- `FromIterator<char>::from_iter` of `SizedStr<N>`, given `by_ref()` of an iterator:
oct/src/sized_str/mod.rs:154-178. -/
def fromSource (next : Source σ Char) (n : Nat) (s : σ) : Res Empty SizedStr × σ :=
  let (r, s') := collectSource next n (List.replicate n 0) 0 s
  (r.map fun (buf, len) => fromRawParts buf len, s')

/-- As `SizedSlice.parts`, of chars into sized strings. -/
def parts (next : Source σ Char) (n : Nat) : (fuel : Nat) → σ → Res Empty (List SizedStr) × σ
  | 0, s => (.ok [], s)
  | fuel + 1, s =>
    match fromSource next n s with
    | (.ok part, s') =>
      if part.isEmpty then (.ok [], s')
      else
        let (r, s'') := parts next n fuel s'
        (r.map (part :: ·), s'')
    | (.err e, _) => e.elim
    | (.panic p, s') => (.panic p, s')
    | (.ub u, s') => (.ub u, s')

end SizedStr
end Oct
