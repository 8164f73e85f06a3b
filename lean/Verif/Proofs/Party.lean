import Verif.Spec.Party
import Verif.Props.Slots
/- Lemmas for `Props/Parties.lean`. -/
namespace Oct
open Spec Props

theorem Slot.write_capacity (s : Slot) (t : Ty) (v : t.Val) :
    (s.write t v).2.capacity = s.capacity := by
  have hw := Ty.encode_wf t v (o := Output.new s.buf) (Nat.zero_le _)
  rw [Slot.write_eq]
  generalize t.encode v (Output.new s.buf) = r at hw
  obtain ⟨r, o⟩ := r
  have hc : o.buf.length = s.buf.length := hw.1
  cases r <;> exact hc

theorem Slot.write_sent (s : Slot) (t : Ty) (v : t.Val) (hv : Encodable t v)
    (hl : (wire t v).length ≤ s.capacity) :
    (s.write t v).1 = .ok () ∧ (s.write t v).2.sent = [wire t v] := by
  have h := C22_write_exact s t v
  have h1 := h.1.mpr ⟨hv, hl⟩
  refine ⟨h1, ?_⟩
  unfold Slot.sent
  rw [(h.2 h1).1]

theorem Slot.recv_capacity (s : Slot) (d : List Byte) : (s.recv d).2.capacity = s.capacity := by
  unfold Slot.recv Slot.capacity
  simp only [List.length_append, List.length_take, List.length_drop]
  omega

theorem Slot.recv_count (s : Slot) (d : List Byte) : (s.recv d).1 ≤ s.capacity :=
  Nat.min_le_right _ _

theorem Slot.recv_read (s : Slot) (t : Ty) (v : t.Val) (hwf : t.WF) (hv : Encodable t v)
    (hs : Supported t v) (hl : (wire t v).length ≤ s.capacity) :
    (s.recv (wire t v)).2.read t = .ok (carried t v) := by
  unfold Slot.recv Slot.read
  simp only
  rw [List.take_of_length_le hl, Nat.min_eq_left hl]
  have := Ty.decode_decodes t hwf v hs hv [] (s.buf.drop (wire t v).length)
  exact congrArg Prod.fst this

theorem Slot.setLen_ok (s : Slot) (k : Nat) (h : k ≤ s.capacity) :
    (s.setLen k).2 = { s with len := k } := by
  unfold Slot.setLen; rw [if_pos h]

/-- The slots have the capacity they were made with, and the network holds what was sent. -/
structure Net.Inv {req resp : Ty} (sizeOf : Ty → Nat) (f : req.Val → resp.Val) (sent : List req.Val)
    (n : Net req resp) : Prop where
  serverReq : n.server.requestBuf.capacity = req.maxSize sizeOf
  serverResp : n.server.responseBuf.capacity = resp.maxSize sizeOf
  clientReq : ∀ c, (n.clients c).requestBuf.capacity = req.maxSize sizeOf
  clientResp : ∀ c, (n.clients c).responseBuf.capacity = resp.maxSize sizeOf
  supported : ∀ v ∈ sent, Encodable req v ∧ Supported req v
  requests : ∀ d ∈ n.requests, ∃ v ∈ sent, d = wire req v
  responses : ∀ d ∈ n.responses, ∃ v ∈ sent, d = wire resp (f (carried req v))
  faithful : Faithful f sent n

variable {req resp : Ty} {sizeOf : Ty → Nat} {f : req.Val → resp.Val}

theorem Net.start_inv : (Net.start sizeOf req resp).Inv sizeOf f [] where
  serverReq := List.length_replicate
  serverResp := List.length_replicate
  clientReq _ := List.length_replicate
  clientResp _ := List.length_replicate
  supported := by simp
  requests := by simp [Net.start]
  responses := by simp [Net.start]
  faithful := ⟨by simp [Net.start], by simp [Net.start], by simp [Net.start], by simp [Net.start]⟩

theorem Net.Inv.mono {n : Net req resp} {a b : List req.Val} (h : n.Inv sizeOf f a)
    (hab : ∀ v ∈ a, v ∈ b) (hb : ∀ v ∈ b, Encodable req v ∧ Supported req v) :
    n.Inv sizeOf f b where
  serverReq := h.serverReq
  serverResp := h.serverResp
  clientReq := h.clientReq
  clientResp := h.clientResp
  supported := hb
  requests d hd := by obtain ⟨v, hv, e⟩ := h.requests d hd; exact ⟨v, hab v hv, e⟩
  responses d hd := by obtain ⟨v, hv, e⟩ := h.responses d hd; exact ⟨v, hab v hv, e⟩
  faithful :=
    ⟨h.faithful.asked,
     fun r hr => by obtain ⟨v, hv, e⟩ := h.faithful.heard r hr; exact ⟨v, hab v hv, e⟩,
     h.faithful.said,
     fun r hr => by obtain ⟨v, hv, e⟩ := h.faithful.got r hr; exact ⟨v, hab v hv, e⟩⟩

/-- What the message types and the handler have to satisfy. -/
structure Net.Fit (sizeOf : Ty → Nat) (f : req.Val → resp.Val) : Prop where
  reqWf : req.WF
  respWf : resp.WF
  reqMax : ∀ v : req.Val, (wire req v).length ≤ req.maxSize sizeOf
  respMax : ∀ v : resp.Val, (wire resp v).length ≤ resp.maxSize sizeOf
  answer : ∀ v, Encodable resp (f v) ∧ Supported resp (f v)

theorem Net.ask_eq (n : Net req resp) (c : Nat) (v : req.Val) (hv : Encodable req v)
    (hl : (wire req v).length ≤ (n.clients c).requestBuf.capacity) :
    n.step f (.ask c v) = { n with
      clients := fun c' => if c' = c
        then { n.clients c with requestBuf := ((n.clients c).requestBuf.write req v).2 }
        else n.clients c'
      asked := n.asked ++ [.ok ()]
      requests := n.requests ++ [wire req v] } := by
  have hw := Slot.write_sent (n.clients c).requestBuf req v hv hl
  simp only [Net.step, hw.1, hw.2]

theorem Net.serve_eq (n : Net req resp) (fit : Net.Fit sizeOf f) (i : Nat) (v : req.Val)
    (hi : n.requests[i]? = some (wire req v)) (hv : Encodable req v) (hs : Supported req v)
    (hq : n.server.requestBuf.capacity = req.maxSize sizeOf)
    (hr : n.server.responseBuf.capacity = resp.maxSize sizeOf) :
    n.step f (.serve i) = { n with
      server :=
        { requestBuf := { (n.server.requestBuf.recv (wire req v)).2 with
            len := (n.server.requestBuf.recv (wire req v)).1 }
          responseBuf := (n.server.responseBuf.write resp (f (carried req v))).2 }
      heard := n.heard ++ [.ok (carried req v)]
      said := n.said ++ [.ok ()]
      responses := n.responses ++ [wire resp (f (carried req v))] } := by
  have hset := Slot.setLen_ok (n.server.requestBuf.recv (wire req v)).2
    (n.server.requestBuf.recv (wire req v)).1
    (by rw [Slot.recv_capacity]; exact Slot.recv_count _ _)
  have hread := Slot.recv_read n.server.requestBuf req v fit.reqWf hv hs
    (by rw [hq]; exact fit.reqMax v)
  have hread' : Slot.read { (n.server.requestBuf.recv (wire req v)).2 with
            len := (n.server.requestBuf.recv (wire req v)).1 } req = .ok (carried req v) := hread
  have hw := Slot.write_sent n.server.responseBuf resp (f (carried req v)) (fit.answer _).1
    (by rw [hr]; exact fit.respMax _)
  simp only [Net.step, hi, hset, hread', hw.1, hw.2]

theorem Net.listen_eq (n : Net req resp) (fit : Net.Fit sizeOf f) (c i : Nat) (v : resp.Val)
    (hi : n.responses[i]? = some (wire resp v)) (hv : Encodable resp v) (hs : Supported resp v)
    (hr : (n.clients c).responseBuf.capacity = resp.maxSize sizeOf) :
    n.step f (.listen c i) = { n with
      clients := fun c' => if c' = c
        then { n.clients c with responseBuf := ((n.clients c).responseBuf.recv (wire resp v)).2 }
        else n.clients c'
      got := n.got ++ [(c, .ok (carried resp v))] } := by
  have hread := Slot.recv_read (n.clients c).responseBuf resp v fit.respWf hv hs
    (by rw [hr]; exact fit.respMax v)
  simp only [Net.step, hi, hread]

theorem Net.step_inv {n : Net req resp} {a : List req.Val} (fit : Net.Fit sizeOf f)
    (h : n.Inv sizeOf f a) (s : NetStep req) (hs : Honest s) :
    (n.step f s).Inv sizeOf f (a ++ asks [s]) := by
  cases s with
  | forge d => exact hs.elim
  | ask c v =>
    have hall : ∀ w ∈ a ++ asks [NetStep.ask c v], Encodable req w ∧ Supported req w := by
      intro w hw
      rcases List.mem_append.mp hw with hw | hw
      · exact h.supported w hw
      · rw [List.mem_singleton.mp hw]; exact hs
    have h' := h.mono (b := a ++ asks [NetStep.ask c v])
      (fun w hw => List.mem_append_left _ hw) hall
    rw [Net.ask_eq n c v hs.1 (by rw [h.clientReq]; exact fit.reqMax v)]
    refine { h' with clientReq := ?_, clientResp := ?_, requests := ?_, faithful := ?_ }
    · intro c'
      simp only
      split
      · rw [Slot.write_capacity]; exact h.clientReq c
      · exact h.clientReq c'
    · intro c'
      simp only
      split
      · exact h.clientResp c
      · exact h.clientResp c'
    · intro d hd
      rcases List.mem_append.mp hd with hd | hd
      · exact h'.requests d hd
      · exact ⟨v, by simp [asks], List.mem_singleton.mp hd⟩
    · refine { h'.faithful with asked := ?_ }
      intro r hr
      rcases List.mem_append.mp hr with hr | hr
      · exact h.faithful.asked r hr
      · exact List.mem_singleton.mp hr
  | serve i =>
    rw [show a ++ asks [NetStep.serve i] = a from List.append_nil a]
    cases hi : n.requests[i]? with
    | none => rw [show n.step f (.serve i) = n by simp only [Net.step, hi]]; exact h
    | some d =>
      obtain ⟨v, hv, rfl⟩ := h.requests d (List.mem_of_getElem? hi)
      have hsup := h.supported v hv
      rw [Net.serve_eq n fit i v hi hsup.1 hsup.2 h.serverReq h.serverResp]
      refine { h with serverReq := ?_, serverResp := ?_, responses := ?_, faithful := ?_ }
      · exact (Slot.recv_capacity _ _).trans h.serverReq
      · exact (Slot.write_capacity _ _ _).trans h.serverResp
      · intro d hd
        rcases List.mem_append.mp hd with hd | hd
        · exact h.responses d hd
        · exact ⟨v, hv, List.mem_singleton.mp hd⟩
      · refine { h.faithful with heard := ?_, said := ?_ }
        · intro r hr
          rcases List.mem_append.mp hr with hr | hr
          · exact h.faithful.heard r hr
          · exact ⟨v, hv, List.mem_singleton.mp hr⟩
        · intro r hr
          rcases List.mem_append.mp hr with hr | hr
          · exact h.faithful.said r hr
          · exact List.mem_singleton.mp hr
  | listen c i =>
    rw [show a ++ asks [NetStep.listen c i] = a from List.append_nil a]
    cases hi : n.responses[i]? with
    | none => rw [show n.step f (.listen c i) = n by simp only [Net.step, hi]]; exact h
    | some d =>
      obtain ⟨v, hv, rfl⟩ := h.responses d (List.mem_of_getElem? hi)
      have hsup := fit.answer (carried req v)
      rw [Net.listen_eq n fit c i _ hi hsup.1 hsup.2 (h.clientResp c)]
      refine { h with clientReq := ?_, clientResp := ?_, faithful := ?_ }
      · intro c'
        simp only
        split
        · exact h.clientReq c
        · exact h.clientReq c'
      · intro c'
        simp only
        split
        · rw [Slot.recv_capacity]; exact h.clientResp c
        · exact h.clientResp c'
      · refine { h.faithful with got := ?_ }
        intro r hr
        rcases List.mem_append.mp hr with hr | hr
        · exact h.faithful.got r hr
        · exact ⟨v, hv, by rw [List.mem_singleton.mp hr]⟩

theorem asks_cons (s : NetStep req) (ss : List (NetStep req)) : asks (s :: ss) = asks [s] ++ asks ss := by
  cases s <;> rfl

theorem Net.run_inv (fit : Net.Fit sizeOf f) : ∀ (ss : List (NetStep req)) (n : Net req resp)
    (a : List req.Val), n.Inv sizeOf f a → (∀ s ∈ ss, Honest s) →
    (n.run f ss).Inv sizeOf f (a ++ asks ss)
  | [], n, a, h, _ => by rw [show a ++ asks [] = a from List.append_nil a]; exact h
  | s :: ss, n, a, h, hs => by
    have h1 := Net.step_inv fit h s (hs s (by simp))
    have h2 := Net.run_inv fit ss _ _ h1 (fun t ht => hs t (by simp [ht]))
    rw [asks_cons, ← List.append_assoc]
    exact h2

theorem Net.step_responses {req resp : Ty} (f : req.Val → resp.Val) (n : Net req resp)
    (h : ∀ d ∈ n.responses, ∃ v, .ok v ∈ n.heard ∧ Encodable resp (f v) ∧ d = wire resp (f v))
    (s : NetStep req) : ∀ d ∈ (n.step f s).responses,
      ∃ v, .ok v ∈ (n.step f s).heard ∧ Encodable resp (f v) ∧ d = wire resp (f v) := by
  cases s with
  | ask c v => exact h
  | forge d => exact h
  | listen c i =>
    simp only [Net.step]
    cases n.responses[i]? with
    | none => exact h
    | some d => exact h
  | serve i =>
    simp only [Net.step]
    cases n.requests[i]? with
    | none => exact h
    | some d =>
      simp only
      generalize ((n.server.requestBuf.recv d).2.setLen (n.server.requestBuf.recv d).1).2 = slot
      generalize hq : slot.read req = q
      have old : ∀ q', ∀ d ∈ n.responses, ∃ v, .ok v ∈ n.heard ++ [q'] ∧ Encodable resp (f v) ∧
          d = wire resp (f v) := fun q' d hd =>
        (h d hd).imp fun v hv => ⟨List.mem_append_left _ hv.1, hv.2⟩
      cases q with
      | err e => exact old _
      | panic p => exact old _
      | ub u => exact old _
      | ok v =>
        simp only
        intro d hd
        rcases List.mem_append.mp hd with hd | hd
        · exact old _ d hd
        · have hw := Props.C22_write_exact n.server.responseBuf resp (f v)
          generalize n.server.responseBuf.write resp (f v) = w at hw hd
          obtain ⟨r, out⟩ := w
          cases r with
          | ok u =>
            have h1 := hw.2 rfl
            have h2 := (hw.1.mp rfl).1
            simp only [Slot.sent, h1.1, List.mem_singleton] at hd
            exact ⟨v, by simp, h2, hd⟩
          | err e => cases hd
          | panic p => cases hd
          | ub u => cases hd

end Oct
