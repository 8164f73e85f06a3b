import Verif.Proofs.StreamWritten
/-
C155: programs that have a stream and compile have no undefined behaviour by aliasing.
-/
namespace Oct.Props
open Spec Alias

/-- C155: under Stacked Borrows, a program that has a stream, calls its methods and looks at what they return has no
undefined behaviour if it compiles. -/
theorem C155_stacked (p : Place) (d : Nat) (hd : Behind p d) (cs : List StreamCall) (hc : StreamChecked p.cap 0 [] cs) :
    Defined Stacked p (streamEvents p d (Owner.new 0) cs) :=
  stackedNest.stream_defined hd cs hc

example : Behind ⟨0, 4⟩ 5 ∧ StreamChecked 4 0 [] [.write 2, .asSlice, .get 0 1, .remaining, .asPtr, .get 1 3, .get 0 0,
    .write 7, .asSlice, .get 2 1] :=
  ⟨by show 0 + 4 < 5; omega, trivial, trivial, ⟨_, rfl, by decide⟩, trivial, trivial, ⟨_, rfl, by decide⟩,
    ⟨_, rfl, by decide⟩, trivial, trivial, ⟨_, rfl, by decide⟩, trivial⟩

/-- C155: likewise under Tree Borrows. -/
theorem C155_tree (p : Place) (d : Nat) (hd : Behind p d) (cs : List StreamCall) (hc : StreamChecked p.cap 0 [] cs) :
    Defined Tree p (streamEvents p d (Owner.new 0) cs) :=
  treeNest.stream_defined hd cs hc

example : Behind ⟨0, 2⟩ 9 ∧ StreamChecked 2 0 [] [.read 1, .readInto 1, .get 0 0, .read 1, .position, .get 0 0] :=
  ⟨by show 0 + 2 < 9; omega, trivial, trivial, ⟨_, rfl, by decide⟩, trivial, trivial, ⟨_, rfl, by decide⟩, trivial⟩

/-- C155: whatever an input stream is used for, what reads returned may be looked at ever after, under both. -/
theorem C155_input (p : Place) (d : Nat) (hd : Behind p d) (cs : List StreamCall) (hi : ∀ c ∈ cs, OfInput c)
    (hg : ∀ a h i b, cs = a ++ .get h i :: b → ∃ n, (readSizes p.cap 0 a)[h]? = some n ∧ i < n) :
    Defined Stacked p (streamEvents p d (Owner.new 0) cs) ∧ Defined Tree p (streamEvents p d (Owner.new 0) cs) :=
  have hc : StreamChecked p.cap 0 [] cs := input_checked p.cap cs 0 [] hi hg
  ⟨C155_stacked p d hd cs hc, C155_tree p d hd cs hc⟩

example : (∀ c ∈ [StreamCall.read 2, .readInto 1], OfInput c) ∧
    ∀ a h i b, [StreamCall.read 2, .readInto 1] = a ++ .get h i :: b →
      ∃ n, (readSizes 3 0 a)[h]? = some n ∧ i < n := by
  refine ⟨fun c hc => ?_, fun a h i b e => ?_⟩
  · simp only [List.mem_cons, List.not_mem_nil, or_false] at hc
    rcases hc with rfl | rfl <;> trivial
  · have : StreamCall.get h i ∈ [StreamCall.read 2, .readInto 1] := by
      rw [e]
      exact List.mem_append_right _ (.head _)
    simp at this

/-- C155: what calls write is what they should: the octets that are copied, and the position if it changes; so input
streams write nothing of what they read from. What they read is the stream itself, and the octets that are copied. -/
theorem C155_touched (p : Place) (d : Nat) (o : Owner) (c : StreamCall) (l : Nat) :
    (WrittenAt (c.go p d o).2 l ↔ StreamWrites p d o.len c l) ∧
    ((∀ h i, c ≠ .get h i) → (ReadAt (c.go p d o).2 l ↔ StreamReads p d o.len c l)) :=
  ⟨stream_written d o c l, fun hc => stream_reads d o c hc l⟩

example : WrittenAt (StreamCall.go ⟨0, 4⟩ 9 (Owner.new 1) (.write 2)).2 2 ∧
    ¬ WrittenAt (StreamCall.go ⟨0, 4⟩ 9 (Owner.new 1) (.write 2)).2 3 ∧
    ¬ WrittenAt (StreamCall.go ⟨0, 4⟩ 9 (Owner.new 1) (.write 4)).2 2 :=
  ⟨((C155_touched ⟨0, 4⟩ 9 (Owner.new 1) (.write 2) 2).1).mpr ⟨by decide, .inr (by decide)⟩,
    fun h => absurd (((C155_touched ⟨0, 4⟩ 9 (Owner.new 1) (.write 2) 3).1).mp h).2 (by decide),
    fun h => absurd (((C155_touched ⟨0, 4⟩ 9 (Owner.new 1) (.write 4) 2).1).mp h).1 (by decide)⟩

/-- C155: under Stacked Borrows, `write` ends what was returned before if it writes anything at all, that is, if there is
room. -/
theorem C155_ended (p : Place) (d : Nat) (hd : Behind p d) (cs : List StreamCall) (hc : StreamChecked p.cap 0 [] cs)
    (k h i : Nat) (x : Held) (hk : (streamAfter p d (Owner.new 0) cs).len + k ≤ p.cap)
    (hx : (streamAfter p d (Owner.new 0) cs).held[h]? = some x) (j : Nat) (hj : j < p.cap)
    (same : x.r.lo + i = p.at_ + j) :
    ¬ Defined Stacked p (streamEvents p d (Owner.new 0) (cs ++ [.write k, .get h i])) := by
  refine stackedNest.stream_stuck hd hc hj fun s _ hw ht => ?_
  obtain ⟨t1, t2⟩ := ht x (List.mem_of_getElem? hx)
  rw [stream_then_get p d _ k hx i, same]
  exact stack_streamWrite hw hd hk (buf_at hj) t2 (by omega)

example : StreamChecked 4 0 [] [.write 2, .asSlice] ∧
    (streamAfter ⟨0, 4⟩ 9 (Owner.new 0) [.write 2, .asSlice]).held[0]? = some ⟨12, ⟨0, 2⟩⟩ ∧
    (streamAfter ⟨0, 4⟩ 9 (Owner.new 0) [.write 2, .asSlice]).len + 0 ≤ 4 :=
  ⟨⟨trivial, trivial, trivial⟩, rfl, by decide⟩

/-- C155: under both, what is written may not be looked at by what was returned before (this may be what `as_ptr`
returned). -/
theorem C155_written (p : Place) (d : Nat) (hd : Behind p d) (cs : List StreamCall) (hc : StreamChecked p.cap 0 [] cs)
    (k h i : Nat) (x : Held) (hx : (streamAfter p d (Owner.new 0) cs).held[h]? = some x) (j : Nat)
    (same : x.r.lo + i = p.at_ + j) (hk : (streamAfter p d (Owner.new 0) cs).len + k ≤ p.cap)
    (hj : (streamAfter p d (Owner.new 0) cs).len ≤ j ∧ j < (streamAfter p d (Owner.new 0) cs).len + k) :
    ¬ Defined Stacked p (streamEvents p d (Owner.new 0) (cs ++ [.write k, .get h i])) ∧
      ¬ Defined Tree p (streamEvents p d (Owner.new 0) (cs ++ [.write k, .get h i])) := by
  have hj' : j < p.cap := Nat.lt_of_lt_of_le hj.2 hk
  refine ⟨C155_ended p d hd cs hc k h i x hk hx j hj' same, treeNest.stream_stuck hd hc hj' fun s hs hw ht => ?_⟩
  obtain ⟨t1, t2⟩ := ht x (List.mem_of_getElem? hx)
  rw [stream_then_get p d _ k hx i, same]
  exact tree_written hw (Rooted.run _ (fun m hm => by rcases List.mem_singleton.mp hm with rfl; exact .head _) hs)
    (streamWrite_inward _ hd hk (buf_at hj'))
    ((stream_written d _ (.write k) _).mpr ⟨hk, .inr (by omega)⟩) t2 (by omega) []

example : StreamChecked 4 0 [] [.asPtr] ∧
    (streamAfter ⟨0, 4⟩ 9 (Owner.new 0) [.asPtr]).held[0]? = some ⟨4, ⟨0, 4⟩⟩ ∧
    (streamAfter ⟨0, 4⟩ 9 (Owner.new 0) [.asPtr]).len + 2 ≤ 4 :=
  ⟨⟨trivial, trivial⟩, rfl, by decide⟩

/-- C155: but under Tree Borrows, what `as_slice` returned may still be looked at whatever is written afterwards, as
nothing of it is written again. -/
theorem C155_kept (p : Place) (d : Nat) (hd : Behind p d) (cs : List StreamCall) (hc : StreamChecked p.cap 0 [] cs)
    (ks : List Nat) (i : Nat) (hi : i < (streamAfter p d (Owner.new 0) cs).len) :
    Defined Tree p (streamEvents p d (Owner.new 0)
      (cs ++ .asSlice :: (ks.map .write ++ [.get (streamAfter p d (Owner.new 0) cs).held.length i]))) :=
  tree_slice_kept hd hc ks i hi

example : Behind ⟨0, 4⟩ 5 ∧ StreamChecked 4 0 [] [.write 2] ∧
    1 < (streamAfter ⟨0, 4⟩ 5 (Owner.new 0) [.write 2]).len :=
  ⟨by show 0 + 4 < 5; omega, ⟨trivial, trivial⟩, by decide⟩

/-- C155: the stream stays within its buffer, it is as far as the calls say, and what was returned is where it should be:
reads that succeed return the octets from the position on. -/
theorem C155_where (p : Place) (d : Nat) (o : Owner) (c : StreamCall) :
    (c.go p d o).1.len = streamPosAfter p.cap o.len c ∧ (o.len ≤ p.cap → streamPosAfter p.cap o.len c ≤ p.cap) ∧
    ∃ hs, (c.go p d o).1.held = o.held ++ hs ∧ hs.map Held.r = match c with
      | .read n => if o.len + n ≤ p.cap then [⟨p.at_ + o.len, n⟩] else []
      | .asPtr => [⟨p.at_, p.cap⟩]
      | .asSlice => [⟨p.at_, o.len⟩]
      | _ => [] := by
  have within : o.len ≤ p.cap → streamPosAfter p.cap o.len c ≤ p.cap := fun h => by
    unfold streamPosAfter
    split <;> first | exact h | (split <;> assumption)
  cases c with
  | read n =>
    by_cases hf : o.len + n ≤ p.cap
    · refine ⟨?_, within, ?_⟩ <;> simp only [StreamCall.go, if_pos hf, streamPosAfter]
      exact ⟨_, rfl, rfl⟩
    · refine ⟨?_, within, ?_⟩ <;> simp only [StreamCall.go, if_neg hf, streamPosAfter]
      exact ⟨[], (List.append_nil _).symm, rfl⟩
  | get h i =>
    rw [stream_get]
    exact ⟨rfl, within, [], (List.append_nil _).symm, rfl⟩
  | asPtr => exact ⟨rfl, within, _, rfl, rfl⟩
  | asSlice => exact ⟨rfl, within, _, rfl, rfl⟩
  | readInto n => exact ⟨rfl, within, [], (List.append_nil _).symm, rfl⟩
  | write n => exact ⟨rfl, within, [], (List.append_nil _).symm, rfl⟩
  | capacity => exact ⟨rfl, within, [], (List.append_nil _).symm, rfl⟩
  | position => exact ⟨rfl, within, [], (List.append_nil _).symm, rfl⟩
  | remaining => exact ⟨rfl, within, [], (List.append_nil _).symm, rfl⟩

example : (StreamCall.go ⟨3, 4⟩ 9 (Owner.new 1) (.read 2)).1.held.map Held.r = [⟨4, 2⟩] := rfl

/-- C155: this is what the streams themselves do: they are then as far as here; a read that succeeds returns the octets that
are behind the reference that is returned here; and a write changes no other octets than those that are written here. -/
theorem C155_agrees (p : Place) (d : Nat) (o : Owner) :
    (∀ (i : Input) (n : Nat), i.buf.length = p.cap → i.pos = o.len → o.len ≤ p.cap →
      (i.read n).2.pos = (StreamCall.go p d o (.read n)).1.len ∧
      ∀ bs, (i.read n).1 = .ok bs → ∃ t r, (StreamCall.go p d o (.read n)).1.held = o.held ++ [⟨t, r⟩] ∧
        bs = (i.buf.drop (r.lo - p.at_)).take r.size) ∧
    (∀ (i : Input) (dst : List Byte), i.buf.length = p.cap → i.pos = o.len → o.len ≤ p.cap →
      (i.readInto dst).2.2.pos = (StreamCall.go p d o (.readInto dst.length)).1.len ∧
      ∀ j, (i.readInto dst).2.1[j]? ≠ dst[j]? → WrittenAt (StreamCall.go p d o (.readInto dst.length)).2 (d + j)) ∧
    (∀ (out : Output) (data : List Byte), out.buf.length = p.cap → out.pos = o.len → o.len ≤ p.cap →
      (out.write data).2.pos = (StreamCall.go p d o (.write data.length)).1.len ∧
      ∀ j, (out.write data).2.buf[j]? ≠ out.buf[j]? →
        WrittenAt (StreamCall.go p d o (.write data.length)).2 (p.at_ + j)) := by
  refine ⟨fun i n hb hp hl => ?_, fun i dst hb hp hl => ?_, fun out data hb hp hl => ?_⟩
  · unfold Input.read
    rw [hb, hp]
    by_cases hf : o.len + n ≤ p.cap
    · have hn : ¬ p.cap - o.len < n := by omega
      simp only [if_neg hn, StreamCall.go, if_pos hf]
      refine ⟨trivial, fun bs e => ⟨_, _, rfl, ?_⟩⟩
      cases e
      simp only [Nat.add_sub_cancel_left]
    · have hn : p.cap - o.len < n := by omega
      simp only [if_pos hn, StreamCall.go, if_neg hf, hp]
      exact ⟨trivial, fun bs e => nomatch e⟩
  · unfold Input.readInto Input.remaining Input.capacity Input.position
    rw [hb, hp]
    by_cases hf : o.len + dst.length ≤ p.cap
    · have hn : ¬ p.cap - o.len < dst.length := by omega
      simp only [if_neg hn]
      refine ⟨by simp only [StreamCall.go, if_pos hf], fun j hj => ?_⟩
      refine (stream_written d o (.readInto dst.length) _).mpr ⟨hf, .inr ⟨Nat.le_add_right d j, ?_⟩⟩
      refine Nat.add_lt_add_left (Nat.lt_of_not_le fun hge => hj ?_) d
      rw [List.getElem?_eq_none hge, List.getElem?_eq_none]
      rw [List.length_take]
      omega
    · have hn : p.cap - o.len < dst.length := by omega
      simp only [if_pos hn]
      exact ⟨by simp only [StreamCall.go, if_neg hf, hp], fun j hj => absurd rfl hj⟩
  · unfold Output.write
    rw [hb, hp]
    by_cases hf : o.len + data.length ≤ p.cap
    · have hn : ¬ p.cap - o.len < data.length := by omega
      simp only [if_neg hn]
      refine ⟨by simp only [StreamCall.go, if_pos hf, Output.put, hp], fun j hj => ?_⟩
      refine (stream_written d o (.write data.length) _).mpr ⟨hf, .inr ?_⟩
      have : out.pos ≤ j ∧ j < out.pos + data.length := Decidable.byContradiction fun h =>
        hj (put_same out data (by omega) j h)
      omega
    · have hn : p.cap - o.len < data.length := by omega
      simp only [if_pos hn]
      exact ⟨by simp only [StreamCall.go, if_neg hf, hp], fun j hj => absurd rfl hj⟩

example : (Input.read ⟨[1, 2, 3, 4], 1⟩ 2).2.pos = (StreamCall.go ⟨0, 4⟩ 9 (Owner.new 1) (.read 2)).1.len ∧
    (Output.write ⟨[0, 0, 0, 0], 1⟩ [5, 6]).2.buf = [0, 5, 6, 0] := ⟨rfl, rfl⟩

end Oct.Props
