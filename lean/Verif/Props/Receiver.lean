import Verif.Proofs.Receiver
/-
C142: octets that arrive in pieces.
-/
namespace Oct.Props
open Oct Spec

/-- C142. In which pieces the octets arrive does not matter: for whatever is expected, the program ends up in the
same state, with the same values, the same rest and the same failure. -/
theorem C142_pieces (talk : Talk) (p q : List (List Byte)) (h : p.flatten = q.flatten) :
    Receiver.receive talk p = Receiver.receive talk q := by
  rw [Receiver.receive_eq, Receiver.receive_eq, h]

/-- C142. Where the program is, by the format alone: what it has decoded is what the octets so far begin with, one
value after the other, and the rest is not a value yet, or is none. This describes exactly one state. -/
theorem C142_state (talk : Talk) (hw : TalkWF talk) (pieces : List (List Byte)) (r : Receiver) :
    Receiver.receive talk pieces = r ↔ Tells talk pieces.flatten r := by
  rw [Receiver.receive_eq]
  constructor
  · rintro rfl
    exact Receiver.pump_tells talk hw _
  · exact fun h => (Receiver.tells_pump talk hw _ r h).symm

/-- C142. Nothing that was decoded is taken back, whatever arrives later. -/
theorem C142_keeps (talk : Talk) (p q : List (List Byte)) :
    (Receiver.receive talk p).got <+: (Receiver.receive talk (p ++ q)).got := by
  rw [Receiver.receive_eq, Receiver.receive_eq, List.flatten_append]
  exact Receiver.pump_got talk _ _

/-- C142. Nothing is waited for needlessly: values whose octets have all arrived have been decoded, whatever follows
them. -/
theorem C142_prompt (talk k : Talk) (hw : TalkWF talk) (pieces : List (List Byte)) (w : List Byte)
    (vs : List (Sigma Ty.Val)) (hp : w <+: pieces.flatten) (h : Says talk w vs k) :
    vs <+: (Receiver.receive talk pieces).got := by
  obtain ⟨rest, hr⟩ := hp
  rw [Receiver.receive_eq, ← hr, Receiver.says_pump h hw]
  exact List.prefix_append _ _

/-- C142. What was sent is received: values that were encoded into one stream arrive, in whatever pieces, and the rest is
what was sent after them, if and only if all values are of the kind that comes back (C09). -/
theorem C142_sent (l : List (Sigma Ty.Val)) (hl : ∀ x ∈ l, x.1.WF) (buf : List Byte) (o : Output)
    (h : encodeAll l (Output.new buf) = (.ok (), o)) (pieces : List (List Byte)) (rest : List Byte)
    (hp : pieces.flatten = o.asSlice ++ rest) :
    ((Receiver.receive (expecting (l.map Sigma.fst)) pieces).got = l.map (fun x => ⟨x.1, carried x.1 x.2⟩) ∧
      (Receiver.receive (expecting (l.map Sigma.fst)) pieces).buf = rest) ↔
    ∀ x ∈ l, Supported x.1 x.2 := by
  have hts : ∀ t ∈ l.map Sigma.fst, t.WF := by
    intro t ht
    obtain ⟨x, hx, rfl⟩ := List.mem_map.mp ht
    exact hl x hx
  have hw := Receiver.expecting_wf _ hts
  rw [← C10_exactly l hl (Output.new buf) o (Nat.zero_le _) h rest, Receiver.receive_eq, hp]
  have ho : o.asSlice.length = o.position := by
    have := encodeAll_ok l (Output.new buf) o (Nat.zero_le _) h
    show (o.buf.take o.pos).length = o.pos
    rw [List.length_take]
    exact Nat.min_eq_left this.2
  constructor
  · rintro ⟨hg, hb⟩
    obtain ⟨w, e, hS, _⟩ := Receiver.pump_tells _ hw (o.asSlice ++ rest)
    rw [hb] at e
    have e := List.append_cancel_right e
    subst e
    rw [hg] at hS
    have := Receiver.says_all _ _ _ _ hS hts (by simp) [] rest
    rw [List.length_nil, Nat.zero_add, ho] at this
    exact this
  · intro hd
    obtain ⟨w, ⟨r', hr⟩, e, hS⟩ := Receiver.all_says _ _ _ _ hts hd
    have hr : w ++ r' = o.asSlice ++ rest := hr
    have e : o.position = w.length := (congrArg Input.pos e).trans (Nat.zero_add _)
    have ⟨e1, e2⟩ := List.append_inj hr (by rw [ho, e])
    rw [← e1, Receiver.says_pump hS hw rest]
    exact ⟨List.append_nil _, rfl⟩

/-- Expects a length, and then as many octets, and then a flag. -/
private def chat : Talk :=
  .next (.num (.int .u8)) fun n => .next (.array (.num (.int .u8)) (show BitVec 8 from n).toNat) fun _ =>
    .next .bool fun _ => .done

/-- Octet by octet, or at once with some more. -/
example : (Receiver.receive chat [[2], [], [7], [8], [1, 5]]).got = (Receiver.receive chat [[2, 7, 8, 1, 5]]).got ∧
    (Receiver.receive chat [[2], [], [7], [8], [1, 5]]).got.length = 3 ∧
    (Receiver.receive chat [[2], [], [7], [8], [1, 5]]).buf = [5] ∧
    (Receiver.receive chat [[2], [7]]).got = [⟨.num (.int .u8), 2#8⟩] ∧
    (Receiver.receive chat [[2], [7]]).buf = [7] := ⟨rfl, rfl, rfl, rfl, rfl⟩

example : TalkWF chat := ⟨trivial, fun _ => ⟨trivial, fun _ => ⟨trivial, fun _ => trivial⟩⟩⟩

/-- The same, of the format alone. -/
example : Tells (expecting [.bool]) [[1, 9]].flatten ⟨[9], .done, [⟨.bool, true⟩], none⟩ :=
  (C142_state (expecting [.bool]) ⟨trivial, fun _ => trivial⟩ [[1, 9]] _).mp rfl

/-- After an octet of an unassigned sign, nothing more is decoded. -/
example : (Receiver.receive (expecting [.ipAddr, .bool]) [[5], [1]]).failed.isSome = true ∧
    (Receiver.receive (expecting [.ipAddr, .bool]) [[5], [1]]).got = [] := ⟨rfl, rfl⟩

/-- A value that does not come back (a sized slice that is not full) is waited for, though it was sent. -/
example : ∃ o, encodeAll [⟨.sizedSlice .bool 2, ⟨[true], by decide⟩⟩] (Output.new [0, 0, 0]) = (.ok (), o) ∧
    o.asSlice = [1, 0, 1] ∧
    (Receiver.receive (expecting [.sizedSlice .bool 2]) [o.asSlice]).got = [] := ⟨_, rfl, rfl, rfl⟩

end Oct.Props
