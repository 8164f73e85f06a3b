import Verif.Model.Decode
/-
A program that decodes values from octets that arrive in pieces, as over a connection: it keeps what has not been
decoded yet, and with each piece tries again from the beginning of what it keeps. Trying is `Input::new`
(oct/src/decode/input/mod.rs:37-39), `Decode::decode` (oct/src/decode/decode/mod.rs:111) and `Input::position`
(oct/src/decode/input/mod.rs:122-124). The crate has no such program; it is what its users write.
SIMPLIFICATION: the panic for lack of input (`read_into(…).unwrap()`, oct/src/decode/decode/mod.rs:827) is caught, and
nothing else is.
-/
namespace Oct

/-- What is expected to arrive: nothing more, or a value of a type, upon which it depends what is expected next. -/
inductive Talk where
  | done
  | next (t : Ty) (k : t.Val → Talk)

/-- The state of the program. -/
structure Receiver where
  /-- What has arrived and has not been decoded. -/
  buf : List Byte
  /-- What is expected next. -/
  talk : Talk
  /-- What has been decoded, in order. -/
  got : List (Sigma Ty.Val)
  /-- Set if decoding did not succeed for a reason other than lack of input. -/
  failed : Option (Res DecErr Empty)

namespace Receiver

/-- Decodes values from `buf` as long as that succeeds: `T::decode(&mut Input::new(buf))`, and then
`buf.drain(..input.position())`. -/
def pump : (talk : Talk) → (buf : List Byte) → Receiver
  | .done, buf => ⟨buf, .done, [], none⟩
  | .next t k, buf =>
    match t.decode (Input.new buf) with
    | (.ok v, i) =>
      let r := pump (k v) (buf.drop i.position)
      { r with got := ⟨t, v⟩ :: r.got }
    | (.err e, _) => ⟨buf, .next t k, [], some (.err e)⟩
    | (.panic .shortInput, _) => ⟨buf, .next t k, [], none⟩
    | (.panic p, _) => ⟨buf, .next t k, [], some (.panic p)⟩
    | (.ub u, _) => ⟨buf, .next t k, [], some (.ub u)⟩

/-- A piece arrives. After a failure, pieces are only kept. -/
def arrive (r : Receiver) (piece : List Byte) : Receiver :=
  match r.failed with
  | some _ => { r with buf := r.buf ++ piece }
  | none =>
    let s := pump r.talk (r.buf ++ piece)
    { s with got := r.got ++ s.got }

/-- Before anything has arrived. -/
def start (talk : Talk) : Receiver := pump talk []

/-- After the given pieces. -/
def receive (talk : Talk) (pieces : List (List Byte)) : Receiver :=
  pieces.foldl arrive (start talk)

end Receiver
end Oct
