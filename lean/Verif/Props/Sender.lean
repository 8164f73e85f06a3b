import Verif.Proofs.Datagrams
/-
C143: values packed into datagrams.
-/
namespace Oct.Props
open Oct Spec

/-- C143. Each datagram is the octets of some values, whole and one after the other, and at most as long as the buffer;
the values are all those that can be encoded and fit, in order, each in one datagram. The others are refused, and
nothing of them is sent. -/
theorem C143_packed (buf : List Byte) (xs : List (Sigma Ty.Val)) :
    ∃ gs : List (List (Sigma Ty.Val)), (Sender.pack buf xs).sent = gs.map octetsOf ∧ Groups buf.length gs ∧
      Divided (Sendable buf.length) xs gs.flatten (Sender.pack buf xs).refused := by
  obtain ⟨gs, h1, h2, h3, _⟩ := Sender.pack_spec buf xs
  exact ⟨gs, h2, h3, h1⟩

/-- C143. If all values can be sent, there is no way to send them, whole and in order, in fewer datagrams of that
size. -/
theorem C143_fewest (buf : List Byte) (xs : List (Sigma Ty.Val)) (hx : ∀ x ∈ xs, Sendable buf.length x)
    (other : List (List (Sigma Ty.Val))) (ho : other.flatten = xs)
    (hl : ∀ g ∈ other, (octetsOf g).length ≤ buf.length) :
    (Sender.pack buf xs).sent.length ≤ other.length := by
  obtain ⟨gs, h1, h2, h3, h4⟩ := Sender.pack_spec buf xs
  rw [h2, List.length_map]
  refine Tight.fewest gs other [] (h4 hx) (fun g hg => (h3 g hg).1) hl ?_
  rw [ho, List.nil_append]
  exact (h1.all hx).1.symm

/-- C143. Each datagram can be decoded by itself, whatever becomes of the others: if it is known which types are in it,
and the values are of the kind that comes back (C09), those are received, and nothing is left. -/
theorem C143_alone (buf : List Byte) (xs : List (Sigma Ty.Val)) (hx : ∀ x ∈ xs, x.1.WF ∧ Supported x.1 x.2) :
    ∃ gs : List (List (Sigma Ty.Val)), Divided (Sendable buf.length) xs gs.flatten (Sender.pack buf xs).refused ∧
      (Sender.pack buf xs).sent.length = gs.length ∧
      ∀ (i : Nat) (d : List Byte) (g : List (Sigma Ty.Val)), (Sender.pack buf xs).sent[i]? = some d → gs[i]? = some g →
        ∀ pieces : List (List Byte), pieces.flatten = d →
          (Receiver.receive (expecting (g.map Sigma.fst)) pieces).got = g.map (fun x => ⟨x.1, carried x.1 x.2⟩) ∧
          (Receiver.receive (expecting (g.map Sigma.fst)) pieces).buf = [] := by
  obtain ⟨gs, h1, h2, h3, _⟩ := Sender.pack_spec buf xs
  refine ⟨gs, h1, by rw [h2, List.length_map], fun i d g hd hg pieces hp => ?_⟩
  rw [h2, List.getElem?_map, hg] at hd
  cases hd
  have hgm : g ∈ gs := List.mem_of_getElem? hg
  have := Receiver.receive_group (g := g) (ts := []) (pieces := pieces) (fun x hm => by
    obtain ⟨hm, hs⟩ := h1.mem x (List.mem_flatten.mpr ⟨g, hgm, hm⟩)
    exact ⟨(hx x hm).1, (hx x hm).2, hs.1⟩) (fun _ h => nomatch h) hp
  rw [List.append_nil] at this
  rw [this]
  exact ⟨List.append_nil _, rfl⟩

/-- C143. If all values are of one type, whose decoding always takes something, the receiver need not know how many there
are in a datagram: decoding as long as there are octets gives the values in it. So what was sent comes back as it was
grouped, in order, up to the datagrams that are lost. -/
theorem C143_drained (t : Ty) (ht : t.WF) (h0 : (t.decode (Input.new [])).1 = .panic .shortInput) (buf : List Byte)
    (xs : List (Sigma Ty.Val)) (hx : ∀ x ∈ xs, x.1 = t ∧ Supported x.1 x.2) (n : Nat) (hn : xs.length ≤ n) :
    ∃ gs : List (List (Sigma Ty.Val)), Divided (Sendable buf.length) xs gs.flatten (Sender.pack buf xs).refused ∧
      (Sender.pack buf xs).sent.map (fun d => (Receiver.receive (expecting (List.replicate n t)) [d]).got) =
        gs.map (fun g => g.map fun x => ⟨x.1, carried x.1 x.2⟩) ∧
      ∀ d ∈ (Sender.pack buf xs).sent, (Receiver.receive (expecting (List.replicate n t)) [d]).buf = [] ∧
        (Receiver.receive (expecting (List.replicate n t)) [d]).failed = none := by
  obtain ⟨gs, h1, h2, h3, _⟩ := Sender.pack_spec buf xs
  have key : ∀ g ∈ gs, (Receiver.receive (expecting (List.replicate n t)) [octetsOf g]) =
      { Receiver.pump (expecting (List.replicate (n - g.length) t)) [] with
        got := g.map fun x => ⟨x.1, carried x.1 x.2⟩ } := by
    intro g hg
    have hm : ∀ x ∈ g, x ∈ xs ∧ Sendable buf.length x := fun x hm => h1.mem x (List.mem_flatten.mpr ⟨g, hg, hm⟩)
    have hf : g.map Sigma.fst = List.replicate g.length t := by
      rw [List.eq_replicate_iff, List.length_map]
      refine ⟨rfl, fun u hu => ?_⟩
      obtain ⟨x, hxg, rfl⟩ := List.mem_map.mp hu
      exact (hx x (hm x hxg).1).1
    have hl : g.length ≤ n := by
      refine Nat.le_trans ?_ hn
      refine Nat.le_trans ?_ (Sender.divided_length h1)
      rw [List.length_flatten]
      exact Sender.le_sum (List.mem_map_of_mem hg)
    have e : List.replicate n t = g.map Sigma.fst ++ List.replicate (n - g.length) t := by
      rw [hf, List.replicate_append_replicate]
      congr 1
      omega
    rw [e, Receiver.receive_group (fun x hxg => by
        obtain ⟨a, b⟩ := hm x hxg
        exact ⟨(hx x a).1 ▸ ht, (hx x a).2, b.1⟩) (fun u hu => (List.eq_of_mem_replicate hu) ▸ ht) (by simp)]
    cases n - g.length with
    | zero => simp [expecting, Receiver.pump]
    | succ m =>
      rw [List.replicate_succ, expecting, Receiver.pump_short h0]
      simp
  refine ⟨gs, h1, ?_, ?_⟩
  · rw [h2, List.map_map]
    refine List.map_congr_left fun g hg => ?_
    rw [Function.comp_apply, key g hg]
  · intro d hd
    rw [h2] at hd
    obtain ⟨g, hg, rfl⟩ := List.mem_map.mp hd
    rw [key g hg]
    cases n - g.length with
    | zero => exact ⟨rfl, rfl⟩
    | succ m =>
      rw [List.replicate_succ, expecting, Receiver.pump_short h0]
      exact ⟨rfl, rfl⟩

/-- Four strings in datagrams of eight octets; that of nine does not fit. -/
private def words : List (Sigma Ty.Val) :=
  [[0x61], [0x62, 0x63], [0x64, 0x65, 0x66, 0x67, 0x68, 0x69, 0x6A, 0x6B, 0x6C], [0x6D], []].map fun l =>
    ⟨.seq .vec (.num (.int .u8)), l.map UInt8.toBitVec⟩

example : (Sender.pack (List.replicate 8 0xFF) words).sent =
      [[1, 0, 0x61, 2, 0, 0x62, 0x63], [1, 0, 0x6D, 0, 0]] ∧
    (Sender.pack (List.replicate 8 0xFF) words).refused.length = 1 := by decide

example : ((Ty.seq .vec (.num (.int .u8))).decode (Input.new [])).1 = .panic .shortInput := rfl

example : (Receiver.receive (expecting (List.replicate 5 (.seq .vec (.num (.int .u8))))) [[1, 0, 0x6D, 0, 0]]).got =
    [⟨.seq .vec (.num (.int .u8)), [0x6D#8]⟩, ⟨.seq .vec (.num (.int .u8)), []⟩] := rfl

end Oct.Props
