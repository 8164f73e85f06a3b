import Verif.Proofs.TallyEmits
/- Lemmas for C133: what encoding a value costs exactly. -/
set_option linter.unusedVariables false
namespace Oct
open Spec Effort

theorem Effort.Costs.to {c d : Nat} {m : Effort} (h : Costs c m) (e : c = d) : Costs d m := e ▸ h

theorem Effort.Costs.stop {c : Nat} (e : Enc Unit) (h : ∀ o, finished (e o).1 = false) : Costs c (.of 0 e) :=
  fun o => ⟨Nat.zero_le _, fun hf => by
    change finished (e o).1 = true at hf
    rw [h o] at hf
    exact nomatch hf⟩

theorem tallyUsize_costs' (p : Prices) (n : Nat) : Costs (priced p 2 1) (tallyUsize p n) := by
  unfold tallyUsize
  have e : p.call + (p.call + p.write) = priced p 2 1 := by unfold priced; omega
  split
  · exact ((Costs.num p 2 n).call p).to e
  · exact ((Costs.stop (c := p.call + p.write) _ fun _ => rfl).call p).to e

theorem tallyIsize_costs (p : Prices) (x : Int) : Costs (priced p 2 1) (tallyIsize p x) := by
  unfold tallyIsize
  have e : p.call + (p.call + p.write) = priced p 2 1 := by unfold priced; omega
  split
  · exact ((Costs.num p 2 _).call p).to e
  · exact ((Costs.stop (c := p.call + p.write) _ fun _ => rfl).call p).to e

theorem tallySystemTime_costs (p : Prices) (t : TimePlatform) (ns : Int) :
    Costs (priced p 2 1) (tallySystemTime p t ns) := by
  unfold tallySystemTime
  have e : p.call + (p.call + p.write) = priced p 2 1 := by unfold priced; omega
  dsimp only
  split
  · exact ((Costs.num p _ _).call p).to e
  · split
    · split
      · exact ((Costs.stop (c := p.call + p.write) _ fun _ => rfl).call p).to e
      · exact ((Costs.num p _ _).call p).to e
    · exact ((Costs.num p _ _).call p).to e

theorem tallyItems_total {α : Type} {f : α → Nat} {m : α → Effort} (h : ∀ v, Costs (f v) (m v))
    (wrap : Nat → EncErr → EncErr) : (i : Nat) → (l : List α) → Costs (total f l) (tallyItems m wrap i l)
  | _, [] => Costs.of _
  | i, v :: vs => ((h v).mapErr (wrap i)).andThen (tallyItems_total h wrap (i + 1) vs)

theorem tallySlice_total {α : Type} (p : Prices) {f : α → Nat} {m : α → Effort} (h : ∀ v, Costs (f v) (m v))
    (l : List α) : Costs (priced p 3 1 + total f l) (tallySlice p m l) :=
  ((((tallyUsize_costs' p _).mapErr _).andThen (tallyItems_total h _ 0 l)).call p).to (by unfold priced; omega)

theorem tallyLinkedList_total {α : Type} (p : Prices) {f : α → Nat} {m : α → Effort} (h : ∀ v, Costs (f v) (m v))
    (l : List α) : Costs (priced p 3 1 + total f l) (tallyLinkedList p m l) :=
  ((((tallyUsize_costs' p _).mapErr _).andThen (tallyItems_total h _ 0 l)).call p).to (by unfold priced; omega)

theorem total_const {α : Type} (c : Nat) : (l : List α) → total (fun _ => c) l = l.length * c
  | [] => (Nat.zero_mul c).symm
  | _ :: l => by
    show c + total (fun _ => c) l = (l.length + 1) * c
    rw [total_const c l, Nat.add_mul, Nat.one_mul, Nat.add_comm]

theorem tallyBytes_costs (p : Prices) (bs : List Byte) :
    Costs (priced p (3 + bs.length) (1 + bs.length)) (tallyBytes p bs) := by
  have h := tallySlice_total (α := Byte) p (f := fun _ => p.call + p.write) (m := fun b => tallyNum p 1 b.toNat)
    (fun b => Costs.num p _ _) bs
  refine Costs.to h ?_
  rw [total_const]
  unfold priced
  rw [Nat.mul_add, Nat.add_mul 3, Nat.add_mul 1]
  omega

theorem tallyEntries_total {α β : Type} {f : α → Nat} {g : β → Nat} {mK : α → Effort} {mV : β → Effort}
    (hK : ∀ k, Costs (f k) (mK k)) (hV : ∀ v, Costs (g v) (mV v)) :
    (l : List (α × β)) → Costs (total (fun e => f e.1 + g e.2) l) (tallyEntries mK mV l)
  | [] => Costs.of _
  | (k, v) :: l => ((hK k).andThen ((hV v).andThen (tallyEntries_total hK hV l))).to (by
      show _ = f k + g v + total _ l
      omega)

theorem tallyKeys_total {α : Type} {f : α → Nat} {mK : α → Effort} (hK : ∀ k, Costs (f k) (mK k)) :
    (l : List α) → Costs (total f l) (tallyKeys mK l)
  | [] => Costs.of _
  | k :: l => (hK k).andThen (tallyKeys_total hK l)

theorem tallyBool_costs (p : Prices) (b : Bool) : Costs (priced p 2 1) (tallyBool p b) :=
  ((Costs.num p 1 _).call p).to (by unfold priced; omega)

theorem tallySocketAddrV4_costs (p : Prices) (a : SocketAddrV4Val) :
    Costs (priced p 4 2) (tallySocketAddrV4 p a) :=
  ((((Costs.num p _ _).call p).andThen (Costs.num p _ _)).call p).to (by unfold priced; omega)

theorem tallySocketAddrV6_costs (p : Prices) (a : SocketAddrV6Val) :
    Costs (priced p 6 4) (tallySocketAddrV6 p a) :=
  ((((Costs.num p _ _).call p).andThen ((Costs.num p _ _).andThen ((Costs.num p _ _).andThen
    (Costs.num p _ _)))).call p).to (by unfold priced; omega)

/-- The work for a discriminant. -/
def reprWork (p : Prices) : Repr → Nat
  | .int _ => priced p 1 1
  | _ => priced p 2 1

theorem tallyRepr_costs (p : Prices) : (r : Repr) → (x : Int) → Costs (reprWork p r) (tallyRepr p r x)
  | .int k, x => (Costs.num p _ _).to (by show _ = priced p 1 1; unfold priced; omega)
  | .usize, x => tallyUsize_costs' p _
  | .isize, x => tallyIsize_costs p x

mutual

theorem Ty.tally_costs (p : Prices) : (t : Ty) → (v : t.Val) → Costs (work p t v) (t.tally p v)
  | .num k, v => (Costs.num p _ _).to (by show _ = priced p 1 1; unfold priced; omega)
  | .bool, v => tallyBool_costs p v
  | .char, v => ((Costs.num p _ _).call p).to (by show _ = priced p 2 1; unfold priced; omega)
  | .usize, v => tallyUsize_costs' p v
  | .isize, v => tallyIsize_costs p v
  | .nonZero r, v => ((tallyRepr_costs p r v.val).call p).to (by
      cases r <;> simp only [work, reprWork, priced] <;> omega)
  | .unit _, _ => ((Costs.of _).call p).to (by show _ = priced p 1 0; unfold priced; omega)
  | .infallible, v => nomatch v
  | .wrap _ t, v => ((t.tally_costs p v).call p).to (by show _ = priced p 1 0 + _; unfold priced; omega)
  | .array t _, v => ((tallyItems_total (t.tally_costs p) _ 0 v.val).call p).to (by
      show _ = priced p 1 0 + _; unfold priced; omega)
  | .seq .slice t, v => tallySlice_total p (t.tally_costs p) v
  | .seq .vec t, v => ((tallySlice_total p (t.tally_costs p) v).call p).to (by
      show _ = priced p 4 1 + _; unfold priced; omega)
  | .seq .linkedList t, v => tallyLinkedList_total p (t.tally_costs p) v
  | .hashMap k v, m => ((tallyEntries_total (k.tally_costs p) (v.tally_costs p) m.val).call p).to (by
      show _ = priced p 1 0 + _; unfold priced; omega)
  | .hashSet k, s => ((tallyKeys_total (k.tally_costs p) s.val).call p).to (by
      show _ = priced p 1 0 + _; unfold priced; omega)
  | .option t, none => ((tallyBool_costs p false).call p).to (by show _ = priced p 3 1 + 0; unfold priced; omega)
  | .option t, some v => (((tallyBool_costs p true).andThen (t.tally_costs p v)).call p).to (by
      show _ = priced p 3 1 + work p t v; unfold priced; omega)
  | .result t e, .ok v => (((tallyBool_costs p false).andThen (t.tally_costs p v)).call p).to (by
      show _ = priced p 3 1 + work p t v; unfold priced; omega)
  | .result t e, .err v => (((tallyBool_costs p true).andThen ((e.tally_costs p v).mapErr _)).call p).to (by
      show _ = priced p 3 1 + work p e v; unfold priced; omega)
  | .bound t, .included v => (((Costs.num p 1 0).andThen ((t.tally_costs p v).mapErr _)).call p).to (by
      show _ = priced p 2 1 + work p t v; unfold priced; omega)
  | .bound t, .excluded v => (((Costs.num p 1 1).andThen ((t.tally_costs p v).mapErr _)).call p).to (by
      show _ = priced p 2 1 + work p t v; unfold priced; omega)
  | .bound t, .unbounded => ((Costs.num p 1 2).call p).to (by show _ = priced p 2 1 + 0; unfold priced; omega)
  | .range t, v => (((t.tally_costs p v.start).andThen (t.tally_costs p v.stop)).call p).to (by
      show _ = priced p 1 0 + (work p t v.start + work p t v.stop); unfold priced; omega)
  | .rangeInclusive t, v => (((t.tally_costs p v.start).andThen (t.tally_costs p v.stop)).call p).to (by
      show _ = priced p 1 0 + (work p t v.start + work p t v.stop); unfold priced; omega)
  | .lock _ t, v => ((t.tally_costs p v.val).call p).to (by
      show _ = priced p 1 0 + work p t v.val; unfold priced; omega)
  | .refCell t, ⟨true, v⟩ => ((Costs.stop (c := work p t v) _ fun _ => rfl).call p).to (by
      show _ = priced p 1 0 + work p t v; unfold priced; omega)
  | .refCell t, ⟨false, v⟩ => (((t.tally_costs p v).mapErr _).call p).to (by
      show _ = priced p 1 0 + work p t v; unfold priced; omega)
  | .duration, v => (((Costs.num p _ _).andThen (Costs.num p _ _)).call p).to (by
      show _ = priced p 3 2; unfold priced; omega)
  | .systemTime q, v => tallySystemTime_costs p q v.val
  | .ipv4, v => ((Costs.num p _ _).call p).to (by show _ = priced p 2 1; unfold priced; omega)
  | .ipv6, v => ((Costs.num p _ _).call p).to (by show _ = priced p 2 1; unfold priced; omega)
  | .ipAddr, .v4 a => ((((Costs.num p _ _).mapErr _).andThen (((Costs.num p _ _).call p).mapErr _)).call p).to (by
      show _ = priced p 4 2; unfold priced; omega)
  | .ipAddr, .v6 a => ((((Costs.num p _ _).mapErr _).andThen (((Costs.num p _ _).call p).mapErr _)).call p).to (by
      show _ = priced p 4 2; unfold priced; omega)
  | .socketAddrV4, v => tallySocketAddrV4_costs p v
  | .socketAddrV6, v => tallySocketAddrV6_costs p v
  | .socketAddr, .v4 a => (((Costs.num p _ _).andThen (tallySocketAddrV4_costs p a)).call p).to (by
      show _ = priced p 6 3; unfold priced; omega)
  | .socketAddr, .v6 a => (((Costs.num p _ _).andThen (tallySocketAddrV6_costs p a)).call p).to (by
      show _ = priced p 8 5; unfold priced; omega)
  | .str .str, v => ((tallyBytes_costs p v.val).call p).to (by
      show _ = priced p (4 + v.val.length) _; unfold priced; rw [Nat.add_mul 3, Nat.add_mul 4]; omega)
  | .str .string, v => (((tallyBytes_costs p v.val).call p).call p).to (by
      show _ = priced p (5 + v.val.length) _; unfold priced; rw [Nat.add_mul 3, Nat.add_mul 5]; omega)
  | .cStr .cStr, v => ((tallyBytes_costs p v.val).call p).to (by
      show _ = priced p (4 + v.val.length) _; unfold priced; rw [Nat.add_mul 3, Nat.add_mul 4]; omega)
  | .cStr .cString, v => (((tallyBytes_costs p v.val).call p).call p).to (by
      show _ = priced p (5 + v.val.length) _; unfold priced; rw [Nat.add_mul 3, Nat.add_mul 5]; omega)
  | .sizedStr _, v => (((tallyBytes_costs p v.val).call p).call p).to (by
      show _ = priced p (5 + v.val.length) _; unfold priced; rw [Nat.add_mul 3, Nat.add_mul 5]; omega)
  | .sizedSlice t _, v => ((tallySlice_total p (t.tally_costs p) v.val).call p).to (by
      show _ = priced p 4 1 + _; unfold priced; omega)
  | .tuple fs, v => ((fs.tally_costs p _ v).call p).to (by show _ = priced p 1 0 + _; unfold priced; omega)
  | .struct fs, v => ((fs.tally_costs p _ v).call p).to (by show _ = priced p 1 0 + _; unfold priced; omega)
  | .enum r vs, v => ((vs.tally_costs p r none v).call p).to (by
      cases r <;> simp only [work, reprWork, priced] <;> omega)

theorem Fields.tally_costs (p : Prices) : (fs : Fields) → (g : EncErr → EncErr) → (v : fs.Val) →
    Costs (workFields p fs v) (fs.tally p g v)
  | .nil, _, _ => Costs.of _
  | .cons t fs, g, v => ((t.tally_costs p v.1).mapErr g).andThen (fs.tally_costs p g v.2)

theorem Variants.tally_costs (p : Prices) : (vs : Variants) → (r : Repr) → (prev : Option Nat) → (v : vs.Val) →
    Costs (reprWork p r + workVariants p vs v) (vs.tally p r prev v)
  | .nil, _, _, v => nomatch v
  | .cons d fs vs, r, prev, .inl v => ((tallyRepr_costs p r _).mapErr _).andThen (fs.tally_costs p _ v)
  | .cons d fs vs, r, prev, .inr v => vs.tally_costs p r _ v

end

end Oct
