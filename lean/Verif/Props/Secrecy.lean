import Verif.Proofs.Secrecy
import Verif.Proofs.Values
import Verif.Props.Parties
/- What a slot held before does not show, unless it is looked at past what was written; and the server of the
documentation does so: C148. -/
namespace Oct.Props
open Spec

/-- C148 (part). A program that looks at a slot only where its contents are known (`Discreet`) comes to the same on every
slot of that capacity that does not differ in what is known: nothing else of the contents can be learnt from it, by way
of results, errors or panics, whatever it writes and whether or not that succeeds. MISSING: programs that are not
discreet, see `C148_contents_exactly` and `C148_false`. -/
theorem C148_secret_partial {ρ : Type} (k : Knows) (p : Use ρ) (s s' : Slot) (hc : Discreet k p s) (ha : Alike k s s') :
    (p.run s').1 = (p.run s).1 :=
  p.blind k s s' hc ha

/-- C148 (part). So it does not matter what a slot was used for before: two histories of operations on slots of the same
capacity leave nothing that a discreet program could tell apart. MISSING: as for `C148_secret_partial`. -/
theorem C148_past_partial {ρ : Type} (cap : Nat) (ops ops' : List SlotOp) (p : Use ρ)
    (hc : Discreet .nothing p ((Slot.withCapacity cap).run ops)) :
    (p.run ((Slot.withCapacity cap).run ops')).1 = (p.run ((Slot.withCapacity cap).run ops)).1 := by
  have h0 : (Slot.withCapacity cap).len ≤ (Slot.withCapacity cap).capacity := Nat.zero_le _
  refine p.blind _ _ _ hc ⟨?_, (fun h => nomatch h), fun _ h => h.elim⟩
  exact ((Slot.run_inv ops _ h0).1).trans ((Slot.run_inv ops' _ h0).1).symm

/-- C148. What `write` gives does not depend on what the slot held, whatever becomes of it, and neither do the contents
after a success. -/
theorem C148_written (s s' : Slot) (t : Ty) (v : t.Val) (hc : s.capacity = s'.capacity) :
    (s'.write t v).1 = (s.write t v).1 ∧
    ((s.write t v).1 = .ok () → (s'.write t v).2.asSlice = (s.write t v).2.asSlice) := by
  refine ⟨(s.write_blind s' t v hc).1, fun h => ?_⟩
  have h' := ((s.write_blind s' t v hc).1).trans h
  rw [((C22_write_exact s t v).2 h).1, ((C22_write_exact s' t v).2 h').1]

/-- C148. The condition on `as_slice` is exact: the contents are the same for all slots that do not differ in what is known
(and whose length is within their capacity, see C21) if and only if the length and all octets up to it are known; the
length of a slot without any capacity is. -/
theorem C148_contents_exactly (k : Knows) (s : Slot) (hs : s.len ≤ s.capacity) :
    (∀ s' : Slot, Alike k s s' → s'.len ≤ s'.capacity → s'.asSlice = s.asSlice) ↔
      (k.len = true ∨ s.capacity = 0) ∧ ∀ i < s.len, k.octet i := by
  have shown : ∀ x : Slot, x.len ≤ x.capacity → x.asSlice = .ok (x.buf.take x.len) := fun x hx => by
    unfold Slot.asSlice
    rw [if_neg (show ¬ x.len > x.buf.length from Nat.not_lt.mpr hx)]
  constructor
  · intro h
    constructor
    · cases hk : k.len with
      | true => exact Or.inl rfl
      | false =>
        right
        by_cases hc : s.capacity = 0
        · exact hc
        · exfalso
          have hc' : s.buf.length ≠ 0 := hc
          have hs' : s.len ≤ s.buf.length := hs
          have go : ∀ n, n ≤ s.buf.length → n = s.len := by
            intro n hn
            have e := h { s with len := n } ⟨rfl, (fun hk' => by rw [hk] at hk'; exact nomatch hk'), fun _ _ => rfl⟩ hn
            rw [shown _ hs, shown { s with len := n } hn] at e
            have e' := congrArg List.length (Res.ok.inj e)
            simp only [List.length_take] at e'
            omega
          have h0 := go 0 (Nat.zero_le _)
          have h1 := go s.buf.length (Nat.le_refl _)
          omega
    · intro i hi
      apply Classical.byContradiction
      intro hn
      have hs' : s.len ≤ s.buf.length := hs
      have hib : i < s.buf.length := by omega
      have e := h { s with buf := s.buf.set i (s.buf[i] + 1) }
        ⟨by simp only [List.length_set], fun _ => rfl, ?_⟩
        (by show s.len ≤ (s.buf.set i _).length; rw [List.length_set]; exact hs')
      · rw [shown _ hs, shown { s with buf := s.buf.set i (s.buf[i] + 1) }
          (by show s.len ≤ (s.buf.set i _).length; rw [List.length_set]; exact hs')] at e
        have e' := congrArg (fun l => l[i]?) (Res.ok.inj e)
        simp only [List.getElem?_take, if_pos hi, List.getElem?_set, if_true, if_pos hib,
          List.getElem?_eq_getElem hib] at e'
        have e2 : (s.buf[i] + 1).toNat = (s.buf[i]).toNat := congrArg UInt8.toNat (Option.some.inj e')
        have := (s.buf[i]).toNat_lt
        rw [UInt8.toNat_add] at e2
        have h1 : (1 : Byte).toNat = 1 := rfl
        rw [h1] at e2
        omega
      · intro j hj
        have : i ≠ j := fun e => hn (e ▸ hj)
        simp only [List.getElem?_set, if_neg this]
  · rintro ⟨h1, h2⟩ s' ha hs'
    have el : s.len = s'.len := by
      rcases h1 with h1 | h1
      · exact ha.2.1 h1
      · have hcap : s.buf.length = 0 := h1
        have e := ha.1
        have a : s.len ≤ s.buf.length := hs
        have b : s'.len ≤ s'.buf.length := hs'
        omega
    rw [shown _ hs, shown _ hs', ← el, take_alike fun i hi => ha.2.2 i (h2 i hi)]

/-- C148 (part). What the server of the documentation hears and answers does not depend on what it heard and answered
before, if the datagram as received can be decoded without running out of input: two servers with slots of the same
capacities hear and send the same. MISSING: datagrams that are cut short, see `C148_replayed`. -/
theorem C148_served_partial {req resp : Ty} (f : req.Val → resp.Val) (n n' : Net req resp) (i j : Nat) (d : List Byte)
    (hi : n.requests[i]? = some d) (hj : n'.requests[j]? = some d)
    (hq : n.server.requestBuf.capacity = n'.server.requestBuf.capacity)
    (hp : n.server.responseBuf.capacity = n'.server.responseBuf.capacity)
    (hd : (req.decode (Input.new (d.take n.server.requestBuf.capacity))).1 ≠ .panic .shortInput) :
    ∃ r x, r = (req.decode (Input.new (d.take n.server.requestBuf.capacity))).1 ∧
      (n.step f (.serve i)).heard = n.heard ++ [r] ∧ (n'.step f (.serve j)).heard = n'.heard ++ [r] ∧
      (n.step f (.serve i)).responses = n.responses ++ x ∧ (n'.step f (.serve j)).responses = n'.responses ++ x := by
  have key : ∀ s : Slot, s.capacity = n.server.requestBuf.capacity →
      (s.recv d).2.read req = (req.decode (Input.new (d.take n.server.requestBuf.capacity))).1 := by
    intro s hs
    have e : ((s.recv d).2.buf).take (min d.length s.capacity) = d.take n.server.requestBuf.capacity := by
      unfold Slot.recv
      simp only
      rw [List.take_left' (by rw [List.length_take]; omega), hs]
    unfold Slot.read
    rw [req.decode_front _ (min d.length s.capacity) (by rw [e]; exact hd), e]
  obtain ⟨a1, a2, _⟩ := Net.serve_shows f n i d hi
  obtain ⟨b1, b2, _⟩ := Net.serve_shows f n' j d hj
  rw [key _ rfl] at a1 a2
  rw [key _ hq.symm, Slot.write_same _ _ resp hp] at b2
  rw [key _ hq.symm] at b1
  exact ⟨_, _, rfl, a1, b1, a2, b2⟩

/-- C148. Whatever datagram the server has served, whoever then sends any beginning of it — an empty datagram will do — makes
the server hear the same once more, and is sent the same answer: `read` decodes the whole buffer, not the octets that
were received. For all message types, all handlers, all states and all datagrams. -/
theorem C148_replayed {req resp : Ty} (f : req.Val → resp.Val) (n : Net req resp) (i : Nat) (d d' : List Byte)
    (hi : n.requests[i]? = some d) (hd : d' <+: d) :
    ∃ r x, (n.step f (.serve i)).heard = n.heard ++ [r] ∧ (n.step f (.serve i)).responses = n.responses ++ x ∧
      (n.run f [.serve i, .forge d', .serve n.requests.length]).heard = n.heard ++ [r, r] ∧
      (n.run f [.serve i, .forge d', .serve n.requests.length]).responses = n.responses ++ x ++ x := by
  obtain ⟨a1, a2, a3, a4, a5⟩ := Net.serve_shows f n i d hi
  refine ⟨_, _, a1, a2, ?_⟩
  simp only [Net.run, List.foldl_cons, List.foldl_nil]
  generalize n.step f (.serve i) = m at *
  have hj : (m.step f (.forge d')).requests[n.requests.length]? = some d' := by
    simp only [Net.step, a5]; simp
  obtain ⟨b1, b2, _⟩ := Net.serve_shows f _ _ d' hj
  have eb : ((m.step f (.forge d')).server.requestBuf.recv d').2.buf = (n.server.requestBuf.recv d).2.buf := by
    have := n.server.requestBuf.recv_prefix hd m.server.requestBuf.len
    simp only [← a4] at this ⊢
    exact this
  have er : ((m.step f (.forge d')).server.requestBuf.recv d').2.read req = (n.server.requestBuf.recv d).2.read req := by
    unfold Slot.read; rw [eb]
  have ew := Slot.write_same n.server.responseBuf m.server.responseBuf resp a3.symm
  rw [er] at b1 b2
  constructor
  · rw [b1]
    show m.heard ++ _ = _
    rw [a1, List.append_assoc]; rfl
  · rw [b2]
    show m.responses ++ Net.reply f (fun v => (m.server.responseBuf.write resp v).1) _ = _
    rw [ew, a2]

/-- C148. So in the setting of C70, after any honest schedule, a stranger that sends an empty datagram after a client's request
was served is sent the answer to that request, too. -/
theorem C148_stranger (sizeOf : Ty → Nat) {req resp : Ty} (f : req.Val → resp.Val) (m : Messages sizeOf f)
    (ss : List (NetStep req)) (hs : ∀ s ∈ ss, Honest s) (c : Nat) (v : req.Val) (hv : Encodable req v)
    (hsup : Supported req v) (n : Net req resp) (hn : (Net.start sizeOf req resp).run f ss = n) :
    (n.run f [.ask c v, .serve n.requests.length, .forge [], .serve (n.requests.length + 1)]).responses
      = n.responses ++ [wire resp (f (carried req v)), wire resp (f (carried req v))] := by
  have h : n.Inv sizeOf f (asks ss) := hn ▸ Net.run_inv m.fit ss _ _ Net.start_inv hs
  have h1 := Net.step_inv m.fit h (.ask c v) ⟨hv, hsup⟩
  have e1 := Net.ask_eq (f := f) n c v hv (by rw [h.clientReq]; exact m.fit.reqMax v)
  have hrun : n.run f [.ask c v, .serve n.requests.length, .forge [], .serve (n.requests.length + 1)]
      = (n.step f (.ask c v)).run f [.serve n.requests.length, .forge [], .serve (n.requests.length + 1)] := rfl
  rw [hrun]
  generalize n.step f (.ask c v) = n1 at h1 e1
  have i1 : n1.requests[n.requests.length]? = some (wire req v) := by rw [e1]; simp
  have l1 : n1.requests.length = n.requests.length + 1 := by rw [e1]; simp
  have r1 : n1.responses = n.responses := by rw [e1]
  obtain ⟨r, x, _, b2, _, b4⟩ := C148_replayed f n1 n.requests.length (wire req v) [] i1 List.nil_prefix
  have e2 := Net.serve_eq n1 m.fit _ v i1 hv hsup h1.serverReq h1.serverResp
  rw [e2] at b2
  have ex : x = [wire resp (f (carried req v))] := (List.append_cancel_left b2).symm
  rw [l1] at b4
  rw [b4, ex, r1, List.append_assoc]
  rfl

/-- C148 is false for the server of the documentation: what a stranger that sends an empty datagram is sent tells any two
requests apart, if the handler's answers do. Here the handler gives the request back. -/
theorem C148_false : ∃ (req resp : Ty) (f : req.Val → resp.Val), ∀ v v' : req.Val, v ≠ v' →
    ((Net.start (fun _ => 0) req resp).run f [.ask 0 v, .serve 0, .forge [], .serve 1]).responses[1]? ≠
    ((Net.start (fun _ => 0) req resp).run f [.ask 0 v', .serve 0, .forge [], .serve 1]).responses[1]? := by
  refine ⟨.num (.int .u16), .num (.int .u16), id, fun v v' hne h => hne ?_⟩
  have m : Messages (fun _ => 0) (req := .num (.int .u16)) (resp := .num (.int .u16)) id :=
    ⟨by simp [Ty.HasSized], by simp [Ty.HasSized], by simp [Everywhere, SizeOk], by simp [Everywhere, SizeOk],
      by simp [Ty.WF], by simp [Ty.WF], fun _ => ⟨by simp [Encodable], by simp [Supported]⟩⟩
  have e : ∀ w : (Ty.num (.int .u16)).Val,
      ((Net.start (fun _ => 0) (.num (.int .u16)) (.num (.int .u16))).run id
        [.ask 0 w, .serve 0, .forge [], .serve 1]).responses = [wire (.num (.int .u16)) w, wire (.num (.int .u16)) w] :=
    fun w => C148_stranger (fun _ => 0) id m [] (by simp) 0 w (by simp [Encodable]) (by simp [Supported]) _ rfl
  rw [e, e] at h
  have hw : leBytes 2 (BitVec.toNat (w := 16) v) = leBytes 2 (BitVec.toNat (w := 16) v') := Option.some.inj h
  exact BitVec.eq_of_toNat_eq (n := 16) (leBytes_inj (BitVec.isLt (w := 16) v) (BitVec.isLt (w := 16) v') hw)

/-! The hypotheses can be met. -/

/-- A program that writes, shows what it wrote, and reads it back; and one that reads a number of which only the first octet
came. -/
def discreetUse (n : Nat) : Use (Res Empty (List Byte) × Res DecErr (Ty.usize).Val) :=
  .write .usize n fun _ => .asSlice fun l => .read .usize fun r => .done (l, r)
def indiscreetUse : Use (Res DecErr (Ty.usize).Val) := .recv [1] fun n => .setLen n fun _ => .read .usize fun r => .done r

example : Discreet .nothing (discreetUse 258) ⟨[9, 9, 9], 3⟩ := by
  refine ⟨rfl, ?_, ⟨2, ?_, ?_⟩, trivial⟩
  · intro i hi; exact Or.inl hi
  · intro i hi; exact Or.inl hi
  · decide
example : Alike .nothing ⟨[9, 9, 9], 3⟩ ⟨[0, 1, 2], 0⟩ := ⟨rfl, (fun h => nomatch h), fun _ h => h.elim⟩
example : ((discreetUse 258).run ⟨[9, 9, 9], 3⟩).1 = (.ok [2, 1], .ok (258 : Nat)) := rfl
example : ((discreetUse 258).run ⟨[0, 1, 2], 0⟩).1 = (.ok [2, 1], .ok (258 : Nat)) := rfl
example : (indiscreetUse.run ⟨[9, 9, 9], 3⟩).1 = .ok (1 + 256 * 9 : Nat) := rfl
example : (indiscreetUse.run ⟨[0, 1, 2], 0⟩).1 = .ok (1 + 256 * 1 : Nat) := rfl
example : ¬ Discreet .nothing indiscreetUse ⟨[9, 9, 9], 3⟩ := by
  rintro ⟨⟨m, h1, h2⟩, _⟩
  match m with
  | 0 => exact h2 rfl
  | 1 => exact h2 rfl
  | m + 2 =>
    rcases (h1 1 (by omega) : 1 < 1 ∨ False) with h | h
    · exact absurd h (by decide)
    · exact h
example : ((Net.start (fun _ => 0) askTy answerTy).run answerer
    [.ask 0 askVal, .serve 0, .forge [], .serve 1]).responses
      = [wire answerTy (answerer askVal), wire answerTy (answerer askVal)] := rfl

end Oct.Props
