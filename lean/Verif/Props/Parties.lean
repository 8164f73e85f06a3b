import Verif.Proofs.Party
/- Servers and clients over unreliable datagrams, as in the crate documentation: C70. -/
namespace Oct.Props
open Spec

/-- What is asked of the two message types: `derive(SizedEncode)`, none of the types for which C18
or the well-formedness of derived items fails, and a handler whose answers are encodable and round
trip. -/
structure Messages (sizeOf : Ty → Nat) {req resp : Ty} (f : req.Val → resp.Val) : Prop where
  reqSized : req.HasSized
  respSized : resp.HasSized
  reqOk : Everywhere (SizeOk sizeOf) req
  respOk : Everywhere (SizeOk sizeOf) resp
  reqWf : req.WF
  respWf : resp.WF
  answer : ∀ v, Encodable resp (f v) ∧ Supported resp (f v)

theorem Messages.fit {sizeOf : Ty → Nat} {req resp : Ty} {f : req.Val → resp.Val}
    (m : Messages sizeOf f) : Net.Fit sizeOf f :=
  ⟨m.reqWf, m.respWf, wire_length_le sizeOf req m.reqSized m.reqOk,
    wire_length_le sizeOf resp m.respSized m.respOk, m.answer⟩

/-- C70 (part). In every schedule of one server and any number of clients whose slots were made with
`Slot::new`, with datagrams lost, duplicated and delivered in any order to any client: no party
panics or sees an error, the server hears nothing but requests that were sent, and a client hears
nothing but the handler's answers to requests that were sent. MISSING: other senders, requests that
cannot be encoded, types for which C09 or C18 fails. -/
theorem C70_faithful_partial (sizeOf : Ty → Nat) {req resp : Ty} (f : req.Val → resp.Val)
    (m : Messages sizeOf f) (ss : List (NetStep req)) (hs : ∀ s ∈ ss, Honest s) :
    Faithful f (asks ss) ((Net.start sizeOf req resp).run f ss) :=
  (Net.run_inv m.fit ss _ _ Net.start_inv hs).faithful

/-- C70 (part). Whatever happened before, a request that is sent, served and answered gives the
client that sent it the answer to it. -/
theorem C70_answered_partial (sizeOf : Ty → Nat) {req resp : Ty} (f : req.Val → resp.Val)
    (m : Messages sizeOf f) (ss : List (NetStep req)) (hs : ∀ s ∈ ss, Honest s) (c : Nat)
    (v : req.Val) (hv : Encodable req v) (hsup : Supported req v) (n : Net req resp)
    (hn : (Net.start sizeOf req resp).run f ss = n) :
    (n.run f [.ask c v, .serve n.requests.length, .listen c n.responses.length]).got
      = n.got ++ [(c, .ok (carried resp (f (carried req v))))] := by
  have h : n.Inv sizeOf f (asks ss) := hn ▸ Net.run_inv m.fit ss _ _ Net.start_inv hs
  simp only [Net.run, List.foldl_cons, List.foldl_nil]
  have h1 := Net.step_inv m.fit h (.ask c v) ⟨hv, hsup⟩
  have e1 := Net.ask_eq (f := f) n c v hv (by rw [h.clientReq]; exact m.fit.reqMax v)
  generalize hn1 : n.step f (.ask c v) = n1 at h1 e1
  have i1 : n1.requests[n.requests.length]? = some (wire req v) := by
    rw [e1]; simp
  have r1 : n1.responses = n.responses := by rw [e1]
  have g1 : n1.got = n.got := by rw [e1]
  have h2 := Net.step_inv m.fit h1 (.serve n.requests.length) trivial
  have e2 := Net.serve_eq n1 m.fit _ v i1 hv hsup h1.serverReq h1.serverResp
  generalize hn2 : n1.step f (.serve n.requests.length) = n2 at h2 e2
  have i2 : n2.responses[n.responses.length]? = some (wire resp (f (carried req v))) := by
    rw [e2]; simp [r1]
  have g2 : n2.got = n.got := by rw [e2]; exact g1
  have e3 := Net.listen_eq n2 m.fit c _ _ i2 (m.answer _).1 (m.answer _).2 (h2.clientResp c)
  rw [e3]
  simp only [g2]

/-- `enum Area { AlQuds, Byzantion, .. }` of the example in the documentation. -/
abbrev areaTy : Ty := .enum .isize
  (.cons none .nil (.cons none .nil (.cons none .nil (.cons none .nil .nil))))

/-- `enum Request { AtmosphericHumidity { area: Area }, .. }`. -/
abbrev askTy : Ty := .enum .isize (.cons none (.cons areaTy .nil)
  (.cons none (.cons areaTy .nil) (.cons none (.cons areaTy .nil) .nil)))

/-- `enum Response { AtmosphericHumidity(f64), .. }`. -/
abbrev answerTy : Ty := .enum .isize (.cons none (.cons (.num .f64) .nil)
  (.cons none (.cons (.num .f64) .nil) (.cons none (.cons (.num .f64) .nil) .nil)))

/-- `Request::AtmosphericTemperature { area: Area::AlQuds }`. -/
def askVal : askTy.Val := .inr (.inr (.inl (.inl (), ())))

/-- The server of the example answers every request with a temperature of 44.4. -/
def answerer : askTy.Val → answerTy.Val := fun _ => .inr (.inr (.inl (0x4046333333333333#64, ())))

theorem answerer_messages (sizeOf : Ty → Nat) : Messages sizeOf answerer where
  reqSized := by simp [Ty.HasSized, Fields.HasSized, Variants.HasSized]
  respSized := by simp [Ty.HasSized, Fields.HasSized, Variants.HasSized]
  reqOk := by simp [Everywhere, EverywhereFields, EverywhereVariants, SizeOk]
  respOk := by simp [Everywhere, EverywhereFields, EverywhereVariants, SizeOk]
  reqWf := by simp [Ty.WF, Fields.WF, Variants.WF, Variants.discs, nextDisc, Repr.InRange]
  respWf := by simp [Ty.WF, Fields.WF, Variants.WF, Variants.discs, nextDisc, Repr.InRange]
  answer _ := by
    refine ⟨⟨?_, trivial, trivial⟩, trivial, trivial⟩
    decide

/-- Two clients, of which one hears the answer to the other's request twice. -/
example : ((Net.start (fun _ => 0) askTy answerTy).run answerer
    [.ask 0 askVal, .ask 1 askVal, .serve 1, .listen 0 0, .listen 0 0]).got
    = [(0, .ok (answerer askVal)), (0, .ok (answerer askVal))] := rfl

example : ∀ s ∈ [NetStep.ask 0 askVal, .ask 1 askVal, .serve 1, .listen 0 0, .listen 0 0],
    Honest s := by
  have h : Encodable askTy askVal ∧ Supported askTy askVal :=
    ⟨⟨by decide, ⟨⟨by decide, trivial⟩, trivial⟩⟩, trivial, trivial⟩
  simp [Honest, h]

/-- C70 (part). Whoever sent it and whatever the slot held: if a datagram of at most the slot's
capacity does not end too early, what is read is what the datagram alone decodes as. -/
theorem C70_datagram_partial (s : Slot) (t : Ty) (d : List Byte) (hl : d.length ≤ s.capacity)
    (h : (t.decode (Input.new d)).1 ≠ .panic .shortInput) :
    ((s.recv d).2.setLen (s.recv d).1).2.read t = (t.decode (Input.new d)).1 := by
  have hc := Slot.recv_capacity s d
  rw [Slot.setLen_ok _ _ (by rw [hc]; exact Slot.recv_count _ _)]
  refine C23_read_contents_partial _ t d ?_ h
  unfold Slot.asSlice
  have h1 : (s.recv d).1 = d.length := Nat.min_eq_left hl
  have h2 : (s.recv d).2.buf = d ++ s.buf.drop d.length := by
    unfold Slot.recv
    simp only
    rw [List.take_of_length_le hl, Nat.min_eq_left hl]
  rw [h1, h2]
  simp only
  rw [if_neg (by rw [List.length_append]; omega), List.take_left' rfl]

example : (Ty.decode .usize (Input.new [9, 1])).1 ≠ .panic .shortInput := by decide

/-- C70 (part). Whoever else sends, and whatever the requests and the handler: each datagram of the
server is the whole encoding of the answer to something that it has heard. -/
theorem C70_responses (sizeOf : Ty → Nat) {req resp : Ty} (f : req.Val → resp.Val)
    (ss : List (NetStep req)) (d : List Byte)
    (hd : d ∈ ((Net.start sizeOf req resp).run f ss).responses) :
    ∃ v, .ok v ∈ ((Net.start sizeOf req resp).run f ss).heard ∧ Encodable resp (f v) ∧
      d = wire resp (f v) := by
  suffices H : ∀ (ss : List (NetStep req)) (n : Net req resp),
      (∀ d ∈ n.responses, ∃ v, .ok v ∈ n.heard ∧ Encodable resp (f v) ∧ d = wire resp (f v)) →
      ∀ d ∈ (n.run f ss).responses, ∃ v, .ok v ∈ (n.run f ss).heard ∧ Encodable resp (f v) ∧
        d = wire resp (f v) from H ss _ (fun d hd => by cases hd) d hd
  intro ss
  induction ss with
  | nil => exact fun n h => h
  | cons s ss ih => exact fun n h => ih _ (Net.step_responses f n h s)

/-- A server that has heard a forged request, and one that cannot encode its answer. -/
example : ((Net.start (fun _ => 0) .bool .usize).run
      (resp := .usize) (fun _ => (5 : Nat)) [.forge [1], .serve 0]).responses
      = [[5, 0]] ∧
    ((Net.start (fun _ => 0) .bool .usize).run
      (resp := .usize) (fun _ => (70000 : Nat)) [.forge [1], .serve 0]).responses = [] := ⟨rfl, rfl⟩

/-- A server that answers every request alike. -/
def yes {req : Ty} : req.Val → Ty.bool.Val := fun _ => true

/-- C70 is false if there are other senders: a datagram of one octet, which is no request, makes the
server hear a request that nobody sent, made of that octet and of the previous request. -/
theorem C70_stale_false :
    ∃ (sizeOf : Ty → Nat) (ss : List (NetStep .usize)),
      asks ss = [(0x0102 : Nat)] ∧ .forge [0x77] ∈ ss ∧
      (Ty.decode .usize (Input.new [0x77])).1 = .panic .shortInput ∧
      ((Net.start sizeOf .usize .bool).run yes ss).heard
        = [.ok (0x0102 : Nat), .ok (0x0177 : Nat)] :=
  ⟨fun _ => 0, [.ask 0 (0x0102 : Nat), .serve 0, .forge [0x77], .serve 1], rfl, by simp, rfl, rfl⟩

/-- C70 is false for requests that cannot be encoded: as the documented client does not look at the
result of `write`, it sends what the failed write has left of the previous request, here
`(1, Some(5))` of `(0, Some(5))` and the failed `(1, Some(70000))`. -/
theorem C70_failed_write_false :
    ∃ (sizeOf : Ty → Nat) (req : Ty) (a b c : req.Val),
      ((Net.start sizeOf req .bool).run yes [.ask 0 a, .ask 0 b, .serve 1]).heard
        = [.ok c] ∧ c ≠ a ∧ c ≠ b := by
  refine ⟨fun _ => 0, .struct (.cons (.num (.int .u8)) (.cons .usize .nil)),
    (0#8, (5 : Nat), ()), (1#8, (70000 : Nat), ()), (1#8, (5 : Nat), ()), rfl, ?_, ?_⟩
  · intro h; injection h with h1; exact absurd h1 (by decide)
  · intro h; injection h with h1 h2; injection h2 with h2; exact absurd h2 (by decide)

end Oct.Props
