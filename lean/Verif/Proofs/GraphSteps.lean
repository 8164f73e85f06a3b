import Verif.Proofs.Graph
import Verif.Spec.GraphSteps
/- Lemmas for C125, exactly: running the steps that an object consists of. -/
set_option linter.unusedVariables false
namespace Oct
open Spec

section
variable (ref : Nat → Nat → Enc Unit)

/-- The steps succeed, given what encoding objects does. -/
def Runs : List Step → Output → Output → Prop
  | [], o, o' => o' = o
  | .put w E :: s, o, o' => E ∧ w.length ≤ o.remaining ∧ Runs s (o.put w) o'
  | .call y :: s, o, o' => ∃ o1, ref y.1 y.2 o = (.ok (), o1) ∧ Runs s o1 o'

/-- The steps get to the object `z`, at `o'`. -/
def Called (z : Nat × Nat) : List Step → Output → Output → Prop
  | [], _, _ => False
  | .put w E :: s, o, o' => E ∧ w.length ≤ o.remaining ∧ Called z s (o.put w) o'
  | .call y :: s, o, o' => (z = y ∧ o' = o) ∨ ∃ o1, ref y.1 y.2 o = (.ok (), o1) ∧ Called z s o1 o'

theorem runs_append {s' : List Step} : ∀ (s : List Step) (o o' : Output),
    Runs ref (s ++ s') o o' ↔ ∃ o1, Runs ref s o o1 ∧ Runs ref s' o1 o'
  | [], o, o' => by simp [Runs]
  | .put w E :: s, o, o' => by
    simp only [List.cons_append, Runs, runs_append s]
    constructor
    · rintro ⟨h1, h2, o1, h3, h4⟩; exact ⟨o1, ⟨h1, h2, h3⟩, h4⟩
    · rintro ⟨o1, ⟨h1, h2, h3⟩, h4⟩; exact ⟨h1, h2, o1, h3, h4⟩
  | .call y :: s, o, o' => by
    simp only [List.cons_append, Runs, runs_append s]
    constructor
    · rintro ⟨o1, h1, o2, h2, h3⟩; exact ⟨o2, ⟨o1, h1, h2⟩, h3⟩
    · rintro ⟨o2, ⟨o1, h1, h2⟩, h3⟩; exact ⟨o1, h1, o2, h2, h3⟩

theorem called_append {z : Nat × Nat} {s' : List Step} : ∀ (s : List Step) (o o' : Output),
    Called ref z (s ++ s') o o' ↔ Called ref z s o o' ∨ ∃ o1, Runs ref s o o1 ∧ Called ref z s' o1 o'
  | [], o, o' => by simp [Runs, Called]
  | .put w E :: s, o, o' => by
    simp only [List.cons_append, Runs, Called, called_append s]
    constructor
    · rintro ⟨h1, h2, h3 | ⟨o1, h3, h4⟩⟩
      · exact .inl ⟨h1, h2, h3⟩
      · exact .inr ⟨o1, ⟨h1, h2, h3⟩, h4⟩
    · rintro (⟨h1, h2, h3⟩ | ⟨o1, ⟨h1, h2, h3⟩, h4⟩)
      · exact ⟨h1, h2, .inl h3⟩
      · exact ⟨h1, h2, .inr ⟨o1, h3, h4⟩⟩
  | .call y :: s, o, o' => by
    simp only [List.cons_append, Runs, Called, called_append s]
    constructor
    · rintro (h | ⟨o1, h1, h2 | ⟨o2, h2, h3⟩⟩)
      · exact .inl (.inl h)
      · exact .inl (.inr ⟨o1, h1, h2⟩)
      · exact .inr ⟨o2, ⟨o1, h1, h2⟩, h3⟩
    · rintro ((h | ⟨o1, h1, h2⟩) | ⟨o2, ⟨o1, h1, h2⟩, h3⟩)
      · exact .inl h
      · exact .inr ⟨o1, h1, .inl h2⟩
      · exact .inr ⟨o1, h1, .inr ⟨o2, h2, h3⟩⟩

theorem called_split {z : Nat × Nat} : ∀ (s : List Step) (o o' : Output), Called ref z s o o' →
    ∃ pre post, s = pre ++ .call z :: post ∧ Runs ref pre o o'
  | .put w E :: s, o, o', ⟨h1, h2, h3⟩ => by
    obtain ⟨pre, post, h4, h5⟩ := called_split s _ _ h3
    exact ⟨.put w E :: pre, post, by rw [h4]; rfl, h1, h2, h5⟩
  | .call y :: s, o, o', .inl ⟨h1, h2⟩ => ⟨[], s, by rw [h1]; rfl, h2⟩
  | .call y :: s, o, o', .inr ⟨o1, h1, h2⟩ => by
    obtain ⟨pre, post, h4, h5⟩ := called_split s _ _ h2
    exact ⟨.call y :: pre, post, by rw [h4]; rfl, o1, h1, h5⟩

/-- `m`, and `m'` with other calls of objects, do what the steps say. -/
structure Sim (ref' : Nat → Nat → Enc Unit) (m m' : Enc Unit) (s : List Step) : Prop where
  ok : ∀ o o', o.WF → (m o = (.ok (), o') ↔ Runs ref s o o')
  same : ∀ o, o.WF → (∀ z o', Called ref z s o o' → ref z.1 z.2 o' = ref' z.1 z.2 o') → m o = m' o
  hit : ∀ o o' o'' z p, o.WF → Called ref z s o o' → ref z.1 z.2 o' = (.panic p, o'') → m o = (.panic p, o'')

variable {ref} {ref' : Nat → Nat → Enc Unit}

theorem Sim.prim {m : Enc Unit} {w : List Byte} {E : Prop} (h : Encodes m w E) :
    Sim ref ref' m m [.put w E] where
  ok o o' ho := by
    constructor
    · intro he
      obtain ⟨h0, _, h2, _⟩ := h.wrote ho he
      have := (h.emits h0 o ho).1 h2
      rw [this] at he
      exact ⟨h0, h2, (congrArg Prod.snd he).symm⟩
    · rintro ⟨h0, h1, h2⟩
      rw [(h.emits h0 o ho).1 h1, h2]
  same _ _ _ := rfl
  hit _ _ _ _ _ _ h := h.2.2.elim

theorem Sim.pure : Sim ref ref' (Enc.pure ()) (Enc.pure ()) [] where
  ok o o' _ := ⟨fun h => (congrArg Prod.snd h).symm, fun h => by rw [h]; rfl⟩
  same _ _ _ := rfl
  hit _ _ _ _ _ _ h := h.elim

theorem Sim.call (y : Nat × Nat) : Sim ref ref' (ref y.1 y.2) (ref' y.1 y.2) [.call y] where
  ok o o' _ := ⟨fun h => ⟨o', h, rfl⟩, fun ⟨o1, h1, h2⟩ => by rw [h2]; exact h1⟩
  same o _ h := h y o (.inl ⟨rfl, rfl⟩)
  hit o o' o'' z p _ h hp := by
    rcases h with ⟨rfl, rfl⟩ | ⟨_, _, h⟩
    · exact hp
    · exact h.elim

/-- What cannot be encoded at all. -/
theorem Sim.stuck {m : Enc Unit} (h : Fails m) {w : List Byte} {E : Prop} (hE : ¬ E) (s : List Step) :
    Sim ref ref' m m (.put w E :: s) where
  ok o o' _ := ⟨fun h' => absurd (congrArg Prod.fst h') (h o), fun h' => absurd h'.1 hE⟩
  same _ _ _ := rfl
  hit _ _ _ _ _ _ h := absurd h.1 hE

theorem Sim.mapErr {m m' : Enc Unit} {s : List Step} (h : Sim ref ref' m m' s) (g : EncErr → EncErr) :
    Sim ref ref' (m.mapErr g) (m'.mapErr g) s where
  ok o o' ho := by
    rw [← h.ok o o' ho]
    refine ⟨Enc.mapErr_ok_inv, fun h' => ?_⟩
    unfold Enc.mapErr
    rw [h']
    rfl
  same o ho hc := by
    unfold Enc.mapErr
    rw [h.same o ho hc]
  hit o o' o'' z p ho hc hp := by
    unfold Enc.mapErr
    rw [h.hit o o' o'' z p ho hc hp]
    rfl

theorem Sim.bind {m m' f f' : Enc Unit} {s s' : List Step} (hg : Grows m) (h : Sim ref ref' m m' s)
    (h' : Sim ref ref' f f' s') :
    Sim ref ref' (m >>= fun _ => f) (m' >>= fun _ => f') (s ++ s') where
  ok o o' ho := by
    rw [runs_append]
    constructor
    · intro he
      obtain ⟨o1, h1, h2⟩ := Enc.bind_ok_inv he
      exact ⟨o1, (h.ok o o1 ho).mp h1, (h'.ok o1 o' (hg o o1 ho h1).1).mp h2⟩
    · rintro ⟨o1, h1, h2⟩
      have h1 := (h.ok o o1 ho).mpr h1
      have h2 := (h'.ok o1 o' (hg o o1 ho h1).1).mpr h2
      show Enc.bind m (fun _ => f) o = _
      unfold Enc.bind
      rw [h1]
      exact h2
  same o ho hc := by
    have h1 := h.same o ho fun z o' hz => hc z o' ((called_append ref s o o').mpr (.inl hz))
    show Enc.bind m (fun _ => f) o = Enc.bind m' (fun _ => f') o
    unfold Enc.bind
    rw [← h1]
    generalize hq : m o = q
    obtain ⟨r, o1⟩ := q
    cases r with
    | ok u =>
      have ho1 := (hg o o1 ho hq).1
      exact h'.same o1 ho1 fun z o' hz =>
        hc z o' ((called_append ref s o o').mpr (.inr ⟨o1, (h.ok o o1 ho).mp hq, hz⟩))
    | _ => rfl
  hit o o' o'' z p ho hc hp := by
    show Enc.bind m (fun _ => f) o = _
    unfold Enc.bind
    rcases (called_append ref s o o').mp hc with hc | ⟨o1, h1, hc⟩
    · rw [h.hit o o' o'' z p ho hc hp]
    · have h1 := (h.ok o o1 ho).mpr h1
      rw [h1]
      exact h'.hit o1 o' o'' z p (hg o o1 ho h1).1 hc hp

end

section
variable {D : Decls} {ref ref' : Nat → Nat → Enc Unit} (hr : ∀ k a, Grows (ref k a))

theorem Sim.items {α : Type} {enc enc' : α → Enc Unit} {st : α → List Step} (wrap : Nat → EncErr → EncErr)
    (hg : ∀ a, Grows (enc a)) (h : ∀ a, Sim ref ref' (enc a) (enc' a) (st a)) :
    ∀ (l : List α) (i : Nat), Sim ref ref' (encItems enc wrap i l) (encItems enc' wrap i l) (l.flatMap st)
  | [], _ => .pure
  | a :: l, i => ((h a).mapErr _).bind ((hg a).mapErr _) (items wrap hg h l (i + 1))

theorem Sim.slice {α : Type} {enc enc' : α → Enc Unit} {st : α → List Step}
    (hg : ∀ a, Grows (enc a)) (h : ∀ a, Sim ref ref' (enc a) (enc' a) (st a)) (l : List α) :
    Sim ref ref' (encSlice enc l) (encSlice enc' l)
      (.put (leBytes 2 l.length) (l.length ≤ 65535) :: l.flatMap st) :=
  (Sim.prim ((encUsize_encodes l.length).mapErr .badLength)).bind
    ((encUsize_encodes l.length).mapErr .badLength).grows (.items _ hg h l 0)

theorem Sim.linkedList {α : Type} {enc enc' : α → Enc Unit} {st : α → List Step}
    (hg : ∀ a, Grows (enc a)) (h : ∀ a, Sim ref ref' (enc a) (enc' a) (st a)) (l : List α) :
    Sim ref ref' (encLinkedList enc l) (encLinkedList enc' l)
      (.put (leBytes 2 l.length) (l.length ≤ 65535) :: l.flatMap st) :=
  (Sim.prim ((encUsize_encodes l.length).mapErr .badLength)).bind
    ((encUsize_encodes l.length).mapErr .badLength).grows (.items _ hg h l 0)

theorem Sim.hashMap {α β : Type} {encK : α → Enc Unit} {enc enc' : β → Enc Unit} {st : β → List Step}
    {w : α → List Byte} {E : α → Prop} (hk : ∀ a, Encodes (encK a) (w a) (E a))
    (hg : ∀ a, Grows (enc a)) (h : ∀ a, Sim ref ref' (enc a) (enc' a) (st a)) :
    ∀ l : List (α × β), Sim ref ref' (encHashMap encK enc l) (encHashMap encK enc' l)
      (l.flatMap fun p => .put (w p.1) (E p.1) :: st p.2)
  | [] => .pure
  | (k, v) :: l => by
    have := (Sim.prim (ref := ref) (ref' := ref') (hk k)).bind (hk k).grows
      ((h v).bind (hg v) (hashMap hk hg h l))
    exact this

include hr

theorem RTy.encodeRef_grows (r : RTy) (v : (r.close addr).Val) : Grows (r.encodeRef D ref v) :=
  r.encodeRef_rel (ref' := ref) encRel_grows v fun y _ => hr y.1 y.2

theorem RFields.encodeRef_grows (fs : RFields) (g : EncErr → EncErr) (v : (fs.close addr).Val) :
    Grows (fs.encodeRef D ref g v) :=
  fs.encodeRef_rel (ref' := ref) encRel_grows g v fun y _ => hr y.1 y.2

mutual

theorem RTy.encodeRef_sim : (r : RTy) → (v : (r.close addr).Val) →
    Sim ref ref' (r.encodeRef D ref v) (r.encodeRef D ref' v) (steps r v)
  | .plain t, v => .prim (Ty.encode_encodes t v)
  | .named k, a => .call (k, a)
  | .wrap _ t, v => t.encodeRef_sim v
  | .array t _, v => .items _ (t.encodeRef_grows hr) t.encodeRef_sim v.val 0
  | .seq .slice t, v => .slice (t.encodeRef_grows hr) t.encodeRef_sim _
  | .seq .vec t, v => .slice (t.encodeRef_grows hr) t.encodeRef_sim _
  | .seq .linkedList t, v => .linkedList (t.encodeRef_grows hr) t.encodeRef_sim _
  | .hashMap k t, v => .hashMap (Ty.encode_encodes k) (t.encodeRef_grows hr) t.encodeRef_sim _
  | .option t, v =>
    match v with
    | none => .prim (encBool_encodes false trivial)
    | some v => (Sim.prim (encBool_encodes true trivial)).bind
      (encBool_encodes true trivial).grows (t.encodeRef_sim v)
  | .result t e, v =>
    match v with
    | .ok v => (Sim.prim (encBool_encodes false trivial)).bind
      (encBool_encodes false trivial).grows (t.encodeRef_sim v)
    | .err v => (Sim.prim (encBool_encodes true trivial)).bind
      (encBool_encodes true trivial).grows ((e.encodeRef_sim v).mapErr _)
  | .bound t, v =>
    match v with
    | .included v => (Sim.prim (encU8_encodes 0 trivial)).bind
      (encU8_encodes 0 trivial).grows ((t.encodeRef_sim v).mapErr _)
    | .excluded v => (Sim.prim (encU8_encodes 1 trivial)).bind
      (encU8_encodes 1 trivial).grows ((t.encodeRef_sim v).mapErr _)
    | .unbounded => .prim (encU8_encodes 2 trivial)
  | .range t, v => (t.encodeRef_sim v.start).bind (t.encodeRef_grows hr _) (t.encodeRef_sim v.stop)
  | .rangeInclusive t, v => (t.encodeRef_sim v.start).bind (t.encodeRef_grows hr _) (t.encodeRef_sim v.stop)
  | .lock _ t, v => t.encodeRef_sim v.val
  | .refCell t, ⟨true, v⟩ => .stuck (E := true = false) (fun _ h => by cases h) (by simp) _
  | .refCell t, ⟨false, v⟩ => by
    have := (Sim.prim (ref := ref) (ref' := ref') (Emits.pure.encodes (E := false = false) rfl)).bind
      (Emits.pure.encodes (E := false = false) rfl).grows ((t.encodeRef_sim v).mapErr .badValue)
    exact this
  | .sizedSlice t _, v => .slice (t.encodeRef_grows hr) t.encodeRef_sim _
  | .tuple fs, v => fs.encodeRef_sim id v

theorem RFields.encodeRef_sim : (fs : RFields) → (g : EncErr → EncErr) → (v : (fs.close addr).Val) →
    Sim ref ref' (fs.encodeRef D ref g v) (fs.encodeRef D ref' g v) (stepsFields fs v)
  | .nil, _, _ => .pure
  | .cons t fs, g, v => ((t.encodeRef_sim v.1).mapErr g).bind ((t.encodeRef_grows hr _).mapErr g)
      (fs.encodeRef_sim g v.2)

end

theorem RVariants.encodeRef_sim : (vs : RVariants) → (r : Repr) → (prev : Option Nat) →
    (explicit : List (Option Nat)) → (j : Nat) → (explicit.drop j = explicitDiscs (vs.close blank)) →
    (prev = if j = 0 then none else some (discOf explicit (j - 1))) → (v : (vs.close addr).Val) →
    Sim ref ref' (vs.encodeRef D ref r prev v) (vs.encodeRef D ref' r prev v) (stepsVariants r explicit vs j v)
  | .nil, _, _, _, _, _, _, v => nomatch v
  | .cons d fs vs, r, prev, explicit, j, h, hp, .inl v => by
    have hd : discOf explicit j = nextDisc prev d := by
      rw [hp]
      apply discOf_step
      have := congrArg (·[0]?) h
      simpa [RVariants.close, explicitDiscs] using this
    have he := (encRepr_encodes r (nextDisc prev d) (.inr (by omega))).mapErr .badDiscriminant
    show Sim ref ref' _ _ (.put (reprWire r (discOf explicit j)) (ReprEncodable r (discOf explicit j)) ::
      stepsFields fs v)
    rw [hd]
    exact (Sim.prim he).bind he.grows (fs.encodeRef_sim hr _ v)
  | .cons d fs vs, r, prev, explicit, j, h, hp, .inr v => by
    have hd : discOf explicit j = nextDisc prev d := by
      rw [hp]
      apply discOf_step
      have := congrArg (·[0]?) h
      simpa [RVariants.close, explicitDiscs] using this
    have hdrop : explicit.drop (j + 1) = explicitDiscs (vs.close blank) := by
      have := congrArg List.tail h
      simpa [RVariants.close, explicitDiscs] using this
    exact vs.encodeRef_sim r _ explicit (j + 1) hdrop (by simp [hd]) v

theorem Decl.encodeRef_sim : (d : Decl) → (v : (d.close addr).Val) →
    Sim ref ref' (d.encodeRef D ref v) (d.encodeRef D ref' v) (stepsDecl d v)
  | .struct fs, v => fs.encodeRef_sim hr _ v
  | .enum r vs, v => vs.encodeRef_sim hr r none _ 0 rfl rfl v

end

theorem Heap.encode_sim {D : Decls} (H : Heap D) (stop stop' : Panic) (n n' : Nat) (x : Nat × Nat) :
    Sim (H.encode stop n) (H.encode stop' n') (H.encode stop (n + 1) x.1 x.2) (H.encode stop' (n' + 1) x.1 x.2)
      (objSteps H x) :=
  (D x.1).encodeRef_sim (H.encode_grows stop n) (H x.1 x.2)

end Oct
