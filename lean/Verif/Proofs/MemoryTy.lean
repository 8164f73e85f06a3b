import Verif.Proofs.Memory
/- Encoders only write, and decoders only read: each is a program of the kind that `Model/Memory.lean`
runs in memory. -/
namespace Oct
open Spec
set_option linter.unusedVariables false

/-- `m` is a program of writes. -/
def EncIs (m : Enc Unit) : Prop := ∃ p : EncProg, ∀ o, p.run o = m o

/-- The program, and then another if it succeeds. -/
def EncProg.seq : EncProg → EncProg → EncProg
  | .stop (.ok ()), q => q
  | .stop (.err e), _ => .stop (.err e)
  | .stop (.panic x), _ => .stop (.panic x)
  | .stop (.ub u), _ => .stop (.ub u)
  | .write d p, q => .write d (p.seq q)

theorem EncProg.seq_run (p q : EncProg) (o : Output) :
    (p.seq q).run o = Enc.bind (fun o => p.run o) (fun _ => fun o => q.run o) o := by
  induction p generalizing o with
  | stop r => cases r <;> rfl
  | write d p ih =>
    unfold Enc.bind
    simp only [EncProg.seq, EncProg.run]
    cases h : o.write d with
    | mk x o1 =>
      cases x with
      | ok x =>
        cases x
        simp only
        rw [ih o1]
        rfl
      | error e => rfl

/-- The program with other errors. -/
def EncProg.onErr (g : EncErr → EncErr) : EncProg → EncProg
  | .stop r => .stop (r.mapErr g)
  | .write d p => .write d (p.onErr g)

theorem EncProg.onErr_run (g : EncErr → EncErr) (p : EncProg) (o : Output) :
    (p.onErr g).run o = ((p.run o).1.mapErr g, (p.run o).2) := by
  induction p generalizing o with
  | stop r => rfl
  | write d p ih =>
    simp only [EncProg.onErr, EncProg.run]
    cases h : o.write d with
    | mk x o1 =>
      cases x with
      | ok x => exact ih o1
      | error e => rfl

namespace EncIs

theorem pure : EncIs (Enc.pure ()) := ⟨.stop (.ok ()), fun _ => rfl⟩
theorem fail (e : EncErr) : EncIs (Enc.fail e) := ⟨.stop (.err e), fun _ => rfl⟩
theorem panic (p : Panic) : EncIs (Enc.panic p) := ⟨.stop (.panic p), fun _ => rfl⟩

theorem write (d : List Byte) : EncIs (Enc.write d) := by
  refine ⟨.write d (.stop (.ok ())), fun o => ?_⟩
  unfold Enc.write
  simp only [EncProg.run]
  cases h : o.write d with
  | mk x o1 => cases x <;> rfl

theorem mapErr {m : Enc Unit} (g : EncErr → EncErr) (h : EncIs m) : EncIs (m.mapErr g) := by
  obtain ⟨p, hp⟩ := h
  refine ⟨p.onErr g, fun o => ?_⟩
  rw [EncProg.onErr_run, hp]
  rfl

theorem bind {m : Enc Unit} {f : Unit → Enc Unit} (hm : EncIs m) (hf : EncIs (f ())) :
    EncIs (m >>= f) := by
  obtain ⟨p, hp⟩ := hm
  obtain ⟨q, hq⟩ := hf
  refine ⟨p.seq q, fun o => ?_⟩
  rw [EncProg.seq_run, show (fun o => p.run o) = m from funext hp]
  show Enc.bind _ _ o = Enc.bind m f o
  unfold Enc.bind
  cases h : m o with
  | mk r o1 => cases r <;> first | exact hq o1 | rfl

end EncIs

section
open EncIs

theorem encNum_isProg (n x : Nat) : EncIs (encNum n x) := write _
theorem encU8_isProg (x : Nat) : EncIs (encU8 x) := write _

theorem encUsize_isProg (x : Nat) : EncIs (encUsize x) := by
  unfold encUsize; split
  · exact write _
  · exact fail _

theorem encIsize_isProg (x : Int) : EncIs (encIsize x) := by
  unfold encIsize; split
  · exact write _
  · exact fail _

theorem encRepr_isProg (r : Repr) (x : Int) : EncIs (encRepr r x) := by
  cases r with
  | int k => exact write _
  | usize => exact encUsize_isProg _
  | isize => exact encIsize_isProg _

theorem encBool_isProg (b : Bool) : EncIs (encBool b) := write _

theorem encItems_isProg {α : Type} {enc : α → Enc Unit} (wrap : Nat → EncErr → EncErr) (i : Nat)
    (l : List α) (h : ∀ x ∈ l, EncIs (enc x)) : EncIs (encItems enc wrap i l) := by
  induction l generalizing i with
  | nil => exact pure
  | cons a l ih =>
    exact bind ((h a (by simp)).mapErr _) (ih (i + 1) (fun x hx => h x (by simp [hx])))

theorem encSlice_isProg {α : Type} {enc : α → Enc Unit} (l : List α)
    (h : ∀ x ∈ l, EncIs (enc x)) : EncIs (encSlice enc l) :=
  bind ((encUsize_isProg _).mapErr _) (encItems_isProg _ _ _ h)

theorem encLinkedList_isProg {α : Type} {enc : α → Enc Unit} (l : List α)
    (h : ∀ x ∈ l, EncIs (enc x)) : EncIs (encLinkedList enc l) :=
  bind ((encUsize_isProg _).mapErr _) (encItems_isProg _ _ _ h)

theorem encBytes_isProg (l : List Byte) : EncIs (encBytes l) :=
  encSlice_isProg l fun _ _ => encU8_isProg _

theorem encHashMap_isProg {α β : Type} {ek : α → Enc Unit} {ev : β → Enc Unit} (l : List (α × β))
    (h : ∀ p ∈ l, EncIs (ek p.1) ∧ EncIs (ev p.2)) : EncIs (encHashMap ek ev l) := by
  induction l with
  | nil => exact pure
  | cons a l ih =>
    exact bind (h a (by simp)).1 (bind (h a (by simp)).2 (ih (fun x hx => h x (by simp [hx]))))

theorem encHashSet_isProg {α : Type} {ek : α → Enc Unit} (l : List α)
    (h : ∀ p ∈ l, EncIs (ek p)) : EncIs (encHashSet ek l) := by
  induction l with
  | nil => exact pure
  | cons a l ih =>
    exact bind (h a (by simp)) (ih (fun x hx => h x (by simp [hx])))

theorem encSystemTime_isProg (p : TimePlatform) (ns : Int) : EncIs (encSystemTime p ns) := by
  unfold encSystemTime
  split
  · exact write _
  · simp only
    split
    · split
      · exact panic _
      · exact write _
    · exact write _

mutual

theorem Ty.encode_isProg : (t : Ty) → (v : t.Val) →  EncIs (t.encode v)
  | .num _, v => write _
  | .bool, v => write _
  | .char, v => write _
  | .usize, v => encUsize_isProg v
  | .isize, v => encIsize_isProg v
  | .nonZero r, v => encRepr_isProg r v.val
  | .unit _, _ => pure
  | .infallible, v => nomatch v
  | .wrap _ t, v => Ty.encode_isProg t v
  | .array t _, v => encItems_isProg _ _ _ fun x hx => Ty.encode_isProg t x
  | .seq .slice t, v => encSlice_isProg v fun x hx => Ty.encode_isProg t x
  | .seq .vec t, v => encSlice_isProg v fun x hx => Ty.encode_isProg t x
  | .seq .linkedList t, v =>
    encLinkedList_isProg v fun x hx => Ty.encode_isProg t x
  | .hashMap k v, m => encHashMap_isProg m.val fun p hp =>
      ⟨Ty.encode_isProg k p.1, Ty.encode_isProg v p.2⟩
  | .hashSet k, s => encHashSet_isProg s.val fun x hx => Ty.encode_isProg k x
  | .option t, none => write _
  | .option t, some v => bind (write _) (Ty.encode_isProg t v)
  | .result t e, .ok v => bind (write _) (Ty.encode_isProg t v)
  | .result t e, .err v =>
    bind (write _) ((Ty.encode_isProg e v).mapErr _)
  | .bound t, .included v => bind (write _) ((Ty.encode_isProg t v).mapErr _)
  | .bound t, .excluded v => bind (write _) ((Ty.encode_isProg t v).mapErr _)
  | .bound t, .unbounded => write _
  | .range t, v =>
    bind (Ty.encode_isProg t v.start) (Ty.encode_isProg t v.stop)
  | .rangeInclusive t, v =>
    bind (Ty.encode_isProg t v.start) (Ty.encode_isProg t v.stop)
  | .lock _ t, v => Ty.encode_isProg t v.val
  | .refCell t, v => by
    show EncIs (if _ then _ else _)
    split
    · exact fail _
    · exact (Ty.encode_isProg t v.val).mapErr _
  | .duration, v => bind (write _) (write _)
  | .systemTime p, v => encSystemTime_isProg p v.val
  | .ipv4, v => write _
  | .ipv6, v => write _
  | .ipAddr, .v4 a => bind ((write _).mapErr _) ((write _).mapErr _)
  | .ipAddr, .v6 a => bind ((write _).mapErr _) ((write _).mapErr _)
  | .socketAddrV4, v => bind (write _) (write _)
  | .socketAddrV6, v => bind (write _) (bind (write _) (bind (write _) (write _)))
  | .socketAddr, .v4 a => bind (write _) (bind (write _) (write _))
  | .socketAddr, .v6 a =>
    bind (write _) (bind (write _) (bind (write _) (bind (write _) (write _))))
  | .str _, v => encBytes_isProg v.val
  | .cStr _, v => encBytes_isProg v.val
  | .sizedStr _, v => encBytes_isProg v.val
  | .sizedSlice t _, v => encSlice_isProg v.val fun x hx => Ty.encode_isProg t x
  | .tuple fs, v => Fields.encode_isProg fs v _
  | .struct fs, v => Fields.encode_isProg fs v _
  | .enum r vs, v => Variants.encode_isProg vs v r none

theorem Fields.encode_isProg : (fs : Fields) → (v : fs.Val) → (g : EncErr → EncErr) →
    EncIs (fs.encode g v)
  | .nil, _, _ => pure
  | .cons t fs, v, g => bind ((Ty.encode_isProg t v.1).mapErr g) (Fields.encode_isProg fs v.2 g)

theorem Variants.encode_isProg : (vs : Variants) → (v : vs.Val) → (r : Repr) →
    (prev : Option Nat) → EncIs (vs.encode r prev v)
  | .nil, v, _, _ => nomatch v
  | .cons d fs vs, .inl v, r, prev =>
    bind ((encRepr_isProg _ _).mapErr _) (Fields.encode_isProg fs v _)
  | .cons d fs vs, .inr v, r, prev => Variants.encode_isProg vs v r _

end

end

/-- `m` is a program of reads. -/
def DecIs {α : Type} (m : Dec α) : Prop := ∃ p : DecProg α, ∀ i, p.run i = m i

/-- The program, and then another if it succeeds. -/
def DecProg.seq {α β : Type} : DecProg α → (α → DecProg β) → DecProg β
  | .stop (.ok a), f => f a
  | .stop (.err e), _ => .stop (.err e)
  | .stop (.panic x), _ => .stop (.panic x)
  | .stop (.ub u), _ => .stop (.ub u)
  | .read n p, f => .read n fun d => (p d).seq f
  | .readInto n p, f => .readInto n fun d => (p d).seq f

theorem DecProg.seq_run {α β : Type} (p : DecProg α) (f : α → DecProg β) (i : Input) :
    (p.seq f).run i = Dec.bind (fun i => p.run i) (fun a => fun i => (f a).run i) i := by
  induction p generalizing i with
  | stop r => cases r <;> rfl
  | read n p ih =>
    unfold Dec.bind
    simp only [DecProg.seq, DecProg.run]
    cases h : i.read n with
    | mk x i1 =>
      cases x with
      | ok x =>
        simp only
        rw [ih x i1]
        rfl
      | error e => rfl
  | readInto n p ih =>
    unfold Dec.bind
    simp only [DecProg.seq, DecProg.run]
    cases h : i.readInto (List.replicate n 0) with
    | mk x i1 =>
      cases i1 with
      | mk d i1 =>
        cases x with
        | ok x =>
          cases x
          simp only
          rw [ih d i1]
          rfl
        | error e => rfl

/-- The program with other errors. -/
def DecProg.onErr {α : Type} (g : DecErr → DecErr) : DecProg α → DecProg α
  | .stop r => .stop (r.mapErr g)
  | .read n p => .read n fun d => (p d).onErr g
  | .readInto n p => .readInto n fun d => (p d).onErr g

theorem DecProg.onErr_run {α : Type} (g : DecErr → DecErr) (p : DecProg α) (i : Input) :
    (p.onErr g).run i = ((p.run i).1.mapErr g, (p.run i).2) := by
  induction p generalizing i with
  | stop r => rfl
  | read n p ih =>
    simp only [DecProg.onErr, DecProg.run]
    cases h : i.read n with
    | mk x i1 =>
      cases x with
      | ok x => exact ih x i1
      | error e => rfl
  | readInto n p ih =>
    simp only [DecProg.onErr, DecProg.run]
    cases h : i.readInto (List.replicate n 0) with
    | mk x i1 =>
      cases i1 with
      | mk d i1 =>
        cases x with
        | ok x => exact ih d i1
        | error e => rfl

namespace DecIs
variable {α β : Type}

theorem pure (a : α) : DecIs (Dec.pure a) := ⟨.stop (.ok a), fun _ => rfl⟩
theorem pure' (a : α) : DecIs (Pure.pure a : Dec α) := pure a
theorem fail (e : DecErr) : DecIs (Dec.fail e : Dec α) := ⟨.stop (.err e), fun _ => rfl⟩
theorem panic (p : Panic) : DecIs (Dec.panic p : Dec α) := ⟨.stop (.panic p), fun _ => rfl⟩
theorem ub (u : Ub) : DecIs (Dec.ub u : Dec α) := ⟨.stop (.ub u), fun _ => rfl⟩

theorem read (k : Nat) : DecIs (Dec.read k) := by
  refine ⟨.read k fun d => .stop (.ok d), fun i => ?_⟩
  unfold Dec.read
  simp only [DecProg.run]
  cases h : i.read k with
  | mk x i1 => cases x <;> rfl

theorem readInto (k : Nat) : DecIs (Dec.readInto k) := by
  refine ⟨.readInto k fun d => .stop (.ok d), fun i => ?_⟩
  unfold Dec.readInto
  simp only [DecProg.run]
  cases h : i.readInto (List.replicate k 0) with
  | mk x i1 =>
    cases i1 with
    | mk d i1 => cases x <;> rfl

theorem bind' {m : Dec α} {f : α → Dec β} (hm : DecIs m) (hf : ∀ a, DecIs (f a)) :
    DecIs (m >>= f) := by
  obtain ⟨p, hp⟩ := hm
  refine ⟨p.seq fun a => (hf a).choose, fun i => ?_⟩
  rw [DecProg.seq_run, show (fun i => p.run i) = m from funext hp]
  show Dec.bind _ _ i = Dec.bind m f i
  unfold Dec.bind
  cases h : m i with
  | mk r i1 =>
    cases r with
    | ok a => exact (hf a).choose_spec i1
    | err e => rfl
    | panic x => rfl
    | ub u => rfl

theorem mapErr {m : Dec α} (g : DecErr → DecErr) (h : DecIs m) : DecIs (m.mapErr g) := by
  obtain ⟨p, hp⟩ := h
  refine ⟨p.onErr g, fun i => ?_⟩
  rw [DecProg.onErr_run, hp]
  rfl

theorem ite {c : Prop} [Decidable c] {m m' : Dec α} (h : c → DecIs m) (h' : ¬ c → DecIs m') :
    DecIs (if c then m else m') := by
  split
  · exact h ‹_›
  · exact h' ‹_›

theorem dite {c : Prop} [Decidable c] {m : c → Dec α} {m' : ¬ c → Dec α} (h : ∀ x, DecIs (m x))
    (h' : ∀ x, DecIs (m' x)) : DecIs (if x : c then m x else m' x) := by
  split
  · exact h _
  · exact h' _

end DecIs

section
open DecIs

theorem decNum_isProg (n : Nat) : DecIs (decNum n) := bind' (readInto n) fun _ => pure' _
theorem decU8_isProg : DecIs decU8 := decNum_isProg 1
theorem decUsize_isProg : DecIs decUsize := decNum_isProg 2
theorem decIsize_isProg : DecIs decIsize := bind' (decNum_isProg 2) fun _ => pure' _

theorem decRepr_isProg (r : Repr) : DecIs (decRepr r) := by
  cases r with
  | int k => exact bind' (decNum_isProg _) fun _ => pure' _
  | usize => exact bind' decUsize_isProg fun _ => pure' _
  | isize => exact decIsize_isProg

theorem decBool_isProg : DecIs decBool := bind' decU8_isProg fun _ => pure' _

theorem decChar_isProg : DecIs decChar :=
  bind' (decNum_isProg 4) fun _ => ite (fun _ => dite (fun _ => pure' _) (fun _ => DecIs.ub _))
    (fun _ => DecIs.fail _)

theorem decNonZero_isProg (r : Repr) : DecIs (decNonZero r) :=
  bind' (decRepr_isProg r) fun _ => ite (fun _ => DecIs.fail _)
    (fun _ => dite (fun _ => pure' _) (fun _ => DecIs.panic _))

variable {α β : Type}

theorem decItems_isProg {dec : Dec α} (h : DecIs dec) (n i : Nat) : DecIs (decItems dec n i) := by
  induction n generalizing i with
  | zero => exact pure' _
  | succ n ih => exact bind' (h.mapErr _) fun _ => bind' (ih _) fun _ => pure' _

theorem decSeq_isProg {dec : Dec α} (h : DecIs dec) : DecIs (decSeq dec) :=
  bind' decUsize_isProg fun _ => bind' (decItems_isProg h _ _) fun _ => pure' _

theorem decSizedSlice_isProg {dec : Dec α} (h : DecIs dec) (n : Nat) :
    DecIs (decSizedSlice dec n) :=
  bind' decUsize_isProg fun _ => ite (fun _ => DecIs.fail _)
    (fun _ => bind' (decItems_isProg h _ _) fun _ => pure' _)

theorem decMapLoop_isProg [DecidableEq α] {dk : Dec α} {dv : Dec β} (hk : DecIs dk) (hv : DecIs dv)
    (n i : Nat) (m : MapVal α β) : DecIs (decMapLoop dk dv n i m) := by
  induction n generalizing i m with
  | zero => exact pure' _
  | succ n ih => exact bind' (hk.mapErr _) fun _ => bind' (hv.mapErr _) fun _ => ih _ _

theorem decHashMap_isProg [DecidableEq α] {dk : Dec α} {dv : Dec β} (hk : DecIs dk) (hv : DecIs dv) :
    DecIs (decHashMap dk dv) :=
  bind' decUsize_isProg fun _ => decMapLoop_isProg hk hv _ _ _

theorem decSetLoop_isProg [DecidableEq α] {dk : Dec α} (hk : DecIs dk)
    (n i : Nat) (m : SetVal α) : DecIs (decSetLoop dk n i m) := by
  induction n generalizing i m with
  | zero => exact pure' _
  | succ n ih => exact bind' (hk.mapErr _) fun _ => ih _ _

theorem decHashSet_isProg [DecidableEq α] {dk : Dec α} (hk : DecIs dk) : DecIs (decHashSet dk) :=
  bind' decUsize_isProg fun _ => decSetLoop_isProg hk _ _ _

theorem decOption_isProg {dec : Dec α} (h : DecIs dec) : DecIs (decOption dec) :=
  bind' decBool_isProg fun _ => ite (fun _ => bind' h fun _ => pure' _) (fun _ => pure' _)

theorem decResult_isProg {dt : Dec α} {de : Dec β} (ht : DecIs dt) (he : DecIs de) :
    DecIs (decResult dt de) :=
  bind' decBool_isProg fun _ => ite (fun _ => bind' (he.mapErr _) fun _ => pure' _)
    (fun _ => bind' (ht.mapErr _) fun _ => pure' _)

theorem decBound_isProg {dec : Dec α} (h : DecIs dec) : DecIs (decBound dec) :=
  bind' decU8_isProg fun _ => ite (fun _ => bind' (h.mapErr _) fun _ => pure' _) fun _ =>
    ite (fun _ => bind' (h.mapErr _) fun _ => pure' _) fun _ =>
      ite (fun _ => pure' _) fun _ => DecIs.fail _

theorem decDuration_isProg : DecIs decDuration :=
  bind' (decNum_isProg 8) fun _ => bind' (decNum_isProg 4) fun _ => by
    split
    · exact pure' _
    · exact DecIs.panic _

theorem decSystemTime_isProg (p : TimePlatform) : DecIs (decSystemTime p) :=
  bind' (decNum_isProg 8) fun _ => dite (fun _ => dite (fun _ => pure' _) (fun _ => DecIs.fail _))
    (fun _ => dite (fun _ => pure' _) (fun _ => DecIs.fail _))

theorem decIpv4_isProg : DecIs decIpv4 := bind' (decNum_isProg 4) fun _ => pure' _
theorem decIpv6_isProg : DecIs decIpv6 := bind' (decNum_isProg 16) fun _ => pure' _

theorem decIpAddr_isProg : DecIs decIpAddr :=
  bind' decU8_isProg fun _ => ite (fun _ => bind' decIpv4_isProg fun _ => pure' _) fun _ =>
    ite (fun _ => bind' decIpv6_isProg fun _ => pure' _) fun _ => DecIs.fail _

theorem decSocketAddrV4_isProg : DecIs decSocketAddrV4 :=
  bind' decIpv4_isProg fun _ => bind' (decNum_isProg 2) fun _ => pure' _

theorem decSocketAddrV6_isProg : DecIs decSocketAddrV6 :=
  bind' decIpv6_isProg fun _ => bind' (decNum_isProg 2) fun _ => bind' (decNum_isProg 4) fun _ =>
    bind' (decNum_isProg 4) fun _ => pure' _

theorem decSocketAddr_isProg : DecIs decSocketAddr :=
  bind' decU8_isProg fun _ => ite (fun _ => bind' decSocketAddrV4_isProg fun _ => pure' _) fun _ =>
    ite (fun _ => bind' decSocketAddrV6_isProg fun _ => pure' _) fun _ => DecIs.fail _

theorem decString_isProg : DecIs decString :=
  bind' decUsize_isProg fun _ => bind' (DecIs.read _) fun _ => by
    split
    · exact pure' _
    · split
      · exact DecIs.fail _
      · exact DecIs.panic _

theorem decCString_isProg : DecIs decCString :=
  bind' decUsize_isProg fun _ => bind' (DecIs.read _) fun _ =>
    dite (fun _ => pure' _) (fun _ => DecIs.fail _)

theorem decSizedStr_isProg (n : Nat) : DecIs (decSizedStr n) :=
  bind' decUsize_isProg fun _ => bind' (DecIs.read _) fun _ => by
    split
    · exact pure' _
    · exact DecIs.fail _
    · exact DecIs.panic _

mutual

theorem Ty.decode_isProg : (t : Ty) → DecIs t.decode
  | .num k => bind' (decNum_isProg _) fun _ => pure' _
  | .bool => decBool_isProg
  | .char => decChar_isProg
  | .usize => decUsize_isProg
  | .isize => decIsize_isProg
  | .nonZero r => decNonZero_isProg r
  | .unit _ => pure' _
  | .infallible => DecIs.panic _
  | .wrap _ t => t.decode_isProg
  | .array t n => decItems_isProg t.decode_isProg n 0
  | .seq _ t => decSeq_isProg t.decode_isProg
  | .hashMap k v => @decHashMap_isProg _ _ k.decEq _ _ k.decode_isProg v.decode_isProg
  | .hashSet k => @decHashSet_isProg _ k.decEq _ k.decode_isProg
  | .option t => decOption_isProg t.decode_isProg
  | .result t e => decResult_isProg t.decode_isProg e.decode_isProg
  | .bound t => decBound_isProg t.decode_isProg
  | .range t => bind' t.decode_isProg fun _ => bind' t.decode_isProg fun _ => pure' _
  | .rangeInclusive t => bind' t.decode_isProg fun _ => bind' t.decode_isProg fun _ => pure' _
  | .lock _ t => bind' t.decode_isProg fun _ => pure' _
  | .refCell t => bind' t.decode_isProg fun _ => pure' _
  | .duration => decDuration_isProg
  | .systemTime p => decSystemTime_isProg p
  | .ipv4 => decIpv4_isProg
  | .ipv6 => decIpv6_isProg
  | .ipAddr => decIpAddr_isProg
  | .socketAddrV4 => decSocketAddrV4_isProg
  | .socketAddrV6 => decSocketAddrV6_isProg
  | .socketAddr => decSocketAddr_isProg
  | .str _ => decString_isProg
  | .cStr _ => decCString_isProg
  | .sizedStr n => decSizedStr_isProg n
  | .sizedSlice t n => decSizedSlice_isProg t.decode_isProg n
  | .tuple fs => fs.decode_isProg _
  | .struct fs => fs.decode_isProg _
  | .enum r vs => bind' (decRepr_isProg r) fun _ => vs.decode_isProg _ _

theorem Fields.decode_isProg : (fs : Fields) → (g : DecErr → DecErr) → DecIs (fs.decode g)
  | .nil, _ => pure' _
  | .cons t fs, g => bind' (t.decode_isProg.mapErr g) fun _ => bind' (fs.decode_isProg g) fun _ => pure' _

theorem Variants.decode_isProg : (vs : Variants) → (prev : Option Nat) → (x : Int) →
    DecIs (vs.decode prev x)
  | .nil, _, _ => DecIs.fail _
  | .cons d fs vs, prev, x =>
    ite (fun _ => bind' (fs.decode_isProg _) fun _ => pure' _)
      (fun _ => bind' (vs.decode_isProg _ _) fun _ => pure' _)

end

end

end Oct
