import Verif.Proofs.RecursiveTy
/-
When decoding a recursive type ends.
-/
namespace Oct
open Spec
set_option linter.unusedVariables false

mutual

/-- Where all references agree on shorter inputs, and those before which nothing is read agree on the
input itself, so does the whole. -/
theorem RTy.upTo_leading {esc : Prop} {B : Nat} {σ τ : Nat → Ty}
    {e : ∀ k, (σ k).Val → (τ k).Val} {reads p : Nat → Prop}
    (hr : ∀ k, reads k → EatsDec (σ k).decode)
    (hlow : ∀ k, AgreeUpTo esc (B - 1) (e k) (σ k).decode (τ k).decode)
    (hp : ∀ k, p k → AgreeUpTo esc B (e k) (σ k).decode (τ k).decode) :
    (r : RTy) → Leading reads p r → AgreeUpTo esc B (r.lift e) (r.close σ).decode (r.close τ).decode
  | .plain t, _ => AgreeUpTo.refl _
  | .named k, h => hp k h
  | .wrap _ t, h => t.upTo_leading hr hlow hp h
  | .array t n, .inl h => by
    subst h
    exact AgreeUpTo.pure' _ _ (Items.ext rfl)
  | .array t n, .inr h =>
    decItems_upTo (t.close σ).decode_local (t.upTo_leading hr hlow hp h) n 0
  | .seq _ t, _ =>
    AgreeUpTo.eat decUsize_local decUsize_eats fun n =>
      AgreeUpTo.bind (decItems_upTo (t.close σ).decode_local (t.upTo hlow) n 0)
        (decItems_local (t.close σ).decode_local n 0) fun _ => AgreeUpTo.pure' _ _ rfl
  | .hashMap k v, _ =>
    AgreeUpTo.eat decUsize_local decUsize_eats fun n =>
      @decMapLoop_upTo _ _ _ _ _ k.decEq _ _ _ _ _ (fun _ => rfl) k.decode_local
        (v.close σ).decode_local (v.upTo hlow) n 0 ⟨[], List.nodup_nil⟩
  | .option t, _ =>
    AgreeUpTo.eat decBool_local decBool_eats fun s =>
      AgreeUpTo.ite (AgreeUpTo.bind (t.upTo hlow) (t.close σ).decode_local fun _ => AgreeUpTo.pure' _ _ rfl)
        (AgreeUpTo.pure' _ _ rfl)
  | .result t u, _ =>
    AgreeUpTo.eat decBool_local decBool_eats fun s =>
      AgreeUpTo.ite
        (AgreeUpTo.bind ((u.upTo hlow).mapErr _) ((u.close σ).decode_local.mapErr _) fun _ =>
          AgreeUpTo.pure' _ _ rfl)
        (AgreeUpTo.bind ((t.upTo hlow).mapErr _) ((t.close σ).decode_local.mapErr _) fun _ =>
          AgreeUpTo.pure' _ _ rfl)
  | .bound t, _ =>
    AgreeUpTo.eat decU8_local decU8_eats fun s =>
      AgreeUpTo.ite
        (AgreeUpTo.bind ((t.upTo hlow).mapErr _) ((t.close σ).decode_local.mapErr _) fun _ =>
          AgreeUpTo.pure' _ _ rfl)
        (AgreeUpTo.ite
          (AgreeUpTo.bind ((t.upTo hlow).mapErr _) ((t.close σ).decode_local.mapErr _) fun _ =>
            AgreeUpTo.pure' _ _ rfl)
          (AgreeUpTo.ite (AgreeUpTo.pure' _ _ rfl) (AgreeUpTo.fail _)))
  | .range t, h =>
    AgreeUpTo.bind (t.upTo_leading hr hlow hp h) (t.close σ).decode_local fun _ =>
      AgreeUpTo.bind (t.upTo_leading hr hlow hp h) (t.close σ).decode_local fun _ => AgreeUpTo.pure' _ _ rfl
  | .rangeInclusive t, h =>
    AgreeUpTo.bind (t.upTo_leading hr hlow hp h) (t.close σ).decode_local fun _ =>
      AgreeUpTo.bind (t.upTo_leading hr hlow hp h) (t.close σ).decode_local fun _ => AgreeUpTo.pure' _ _ rfl
  | .lock _ t, h =>
    AgreeUpTo.bind (t.upTo_leading hr hlow hp h) (t.close σ).decode_local fun _ => AgreeUpTo.pure' _ _ rfl
  | .refCell t, h =>
    AgreeUpTo.bind (t.upTo_leading hr hlow hp h) (t.close σ).decode_local fun _ => AgreeUpTo.pure' _ _ rfl
  | .sizedSlice t n, _ =>
    AgreeUpTo.eat decUsize_local decUsize_eats fun len =>
      AgreeUpTo.ite (AgreeUpTo.fail _)
        (AgreeUpTo.bind (decItems_upTo (t.close σ).decode_local (t.upTo hlow) n 0)
          (decItems_local (t.close σ).decode_local n 0) fun _ =>
            AgreeUpTo.pure' _ _ (Subtype.ext (List.map_take ..)))
  | .tuple fs, h => fs.upTo_leading hr hlow hp h id

theorem RFields.upTo_leading {esc : Prop} {B : Nat} {σ τ : Nat → Ty}
    {e : ∀ k, (σ k).Val → (τ k).Val} {reads p : Nat → Prop}
    (hr : ∀ k, reads k → EatsDec (σ k).decode)
    (hlow : ∀ k, AgreeUpTo esc (B - 1) (e k) (σ k).decode (τ k).decode)
    (hp : ∀ k, p k → AgreeUpTo esc B (e k) (σ k).decode (τ k).decode) :
    (fs : RFields) → LeadingFields reads p fs → (g : DecErr → DecErr) →
      AgreeUpTo esc B (fs.lift e) ((fs.close σ).decode g) ((fs.close τ).decode g)
  | .nil, _, _ => AgreeUpTo.pure' _ _ rfl
  | .cons t fs, ⟨h, .inl hE⟩, g =>
    AgreeUpTo.bindEat ((t.upTo_leading hr hlow hp h).mapErr g) ((t.close σ).decode_local.mapErr g)
      ((t.decode_takes hr hE).mapErr g) fun _ =>
        AgreeUpTo.bind (fs.upTo hlow g) ((fs.close σ).decode_local g) fun _ => AgreeUpTo.pure' _ _ rfl
  | .cons t fs, ⟨h, .inr h'⟩, g =>
    AgreeUpTo.bind ((t.upTo_leading hr hlow hp h).mapErr g) ((t.close σ).decode_local.mapErr g) fun _ =>
      AgreeUpTo.bind (fs.upTo_leading hr hlow hp h' g) ((fs.close σ).decode_local g) fun _ =>
        AgreeUpTo.pure' _ _ rfl

end

theorem Decl.upTo_leading {esc : Prop} {B : Nat} {σ τ : Nat → Ty}
    {e : ∀ k, (σ k).Val → (τ k).Val} {reads p : Nat → Prop}
    (hr : ∀ k, reads k → EatsDec (σ k).decode)
    (hlow : ∀ k, AgreeUpTo esc (B - 1) (e k) (σ k).decode (τ k).decode)
    (hp : ∀ k, p k → AgreeUpTo esc B (e k) (σ k).decode (τ k).decode) :
    (d : Decl) → LeadingDecl reads p d → AgreeUpTo esc B (d.lift e) (d.close σ).decode (d.close τ).decode
  | .struct fs, h => fs.upTo_leading hr hlow hp h _
  | .enum r vs, _ =>
    AgreeUpTo.eat (decRepr_local r) (decRepr_eats r) fun x => vs.upTo hlow none x

theorem Decl.bottom_decode (d : Decl) (i : Input) : (d.bottom.decode i).1 = .panic .infallible := by
  cases d <;> rfl

/-- One unrolling more does the same, unless the mark is hit. -/
theorem unroll_upTo1 (D : Decls) (B : Nat) : (n k : Nat) →
    AgreeUpTo True B (raise1 D n k) (unroll D n k).decode (unroll D (n + 1) k).decode
  | 0, k => by
    intro i _ _
    left
    refine ⟨trivial, ?_⟩
    exact (D k).bottom_decode i
  | n + 1, k => (D k).upTo (unroll_upTo1 D B n)

/-- If nothing leads back to itself without reading, then one unrolling more does just the same on
inputs that are short for the depth. -/
theorem unroll_ends1 {D : Decls} {reads : Nat → Prop} {rank : Nat → Nat} {ranks : Nat}
    (h : Guarded D reads rank ranks) :
    (n k B : Nat) → (B = 0 ∨ (B - 1) * ranks + rank k + 1 ≤ n) →
      AgreeUpTo False B (raise1 D n k) (unroll D n k).decode (unroll D (n + 1) k).decode
  | 0, k, B, hB => by
    intro i _ hl
    omega
  | n + 1, k, B, hB => by
    by_cases h0 : B = 0
    · intro i _ hl
      omega
    have hB : (B - 1) * ranks + rank k + 1 ≤ n + 1 := by omega
    refine (D k).upTo_leading (unroll_eats (fun j => (h j).1) n) (fun j => unroll_ends1 h n j (B - 1) ?_)
      (fun j hj => unroll_ends1 h n j B (.inr ?_)) (h k).2.2
    · by_cases h1 : B - 1 = 0
      · exact .inl h1
      · right
        have hr := (h j).2.1
        have : (B - 1) * ranks = (B - 1 - 1) * ranks + ranks := by
          have : B - 1 = (B - 1 - 1) + 1 := by omega
          conv => lhs; rw [this, Nat.add_mul, Nat.one_mul]
        omega
    · have hj : rank j < rank k := hj
      omega

theorem Res.map_map' {ε α β γ : Type} (f : α → β) (g : β → γ) (r : Res ε α) :
    (r.map f).map g = r.map (fun a => g (f a)) := by cases r <;> rfl

theorem Res.map_id' {ε α : Type} (r : Res ε α) : r.map (fun a => a) = r := by cases r <;> rfl

theorem Res.map_panic_inv {ε α β : Type} {f : α → β} {r : Res ε α} {p : Panic}
    (h : r.map f = .panic p) : r = .panic p := by
  cases r with
  | ok a => cases h
  | err e => cases h
  | panic q => cases h; rfl
  | ub u => cases h

theorem unroll_upTo (D : Decls) (n k : Nat) (i : Input) (hi : i.WF)
    (h : ((unroll D n k).decode i).1 ≠ .panic .infallible) : (j : Nat) →
    (unroll D (n + j) k).decode i
      = (((unroll D n k).decode i).1.map (raise D n j k), ((unroll D n k).decode i).2)
  | 0 => by
    show (unroll D n k).decode i
      = (((unroll D n k).decode i).1.map (fun v => v), ((unroll D n k).decode i).2)
    rw [Res.map_id']
  | j + 1 => by
    have ih := unroll_upTo D n k i hi h j
    rcases unroll_upTo1 D (i.remaining + 1) (n + j) k i hi (by omega) with ⟨_, h1⟩ | h1
    · rw [ih] at h1
      exact absurd (Res.map_panic_inv h1) h
    · rw [ih] at h1
      refine (show (unroll D (n + j + 1) k).decode i = _ from h1).trans ?_
      rw [Res.map_map']
      rfl

theorem unroll_ends {D : Decls} {reads : Nat → Prop} {rank : Nat → Nat} {ranks : Nat}
    (h : Guarded D reads rank ranks)
    (n k : Nat) (i : Input) (hi : i.WF) (hn : i.remaining * ranks + rank k + 1 ≤ n) : (j : Nat) →
    (unroll D (n + j) k).decode i
      = (((unroll D n k).decode i).1.map (raise D n j k), ((unroll D n k).decode i).2)
  | 0 => by
    show (unroll D n k).decode i
      = (((unroll D n k).decode i).1.map (fun v => v), ((unroll D n k).decode i).2)
    rw [Res.map_id']
  | j + 1 => by
    have ih := unroll_ends h n k i hi hn j
    rcases unroll_ends1 h (n + j) k (i.remaining + 1) (.inr (by
        rw [Nat.add_sub_cancel]; omega)) i hi (by omega) with ⟨h0, _⟩ | h1
    · exact h0.elim
    · rw [ih] at h1
      refine (show (unroll D (n + j + 1) k).decode i = _ from h1).trans ?_
      rw [Res.map_map']
      rfl

theorem embed_ends {D : Decls} {reads : Nat → Prop} {rank : Nat → Nat} {ranks : Nat}
    (h : Guarded D reads rank ranks)
    (b : Nat → Ty) : (n k B : Nat) → (B = 0 ∨ (B - 1) * ranks + rank k + 1 ≤ n) →
      AgreeUpTo False B (embed b D n k) (unroll D n k).decode (unrollWith b D n k).decode
  | 0, k, B, hB => by
    intro i _ hl
    omega
  | n + 1, k, B, hB => by
    by_cases h0 : B = 0
    · intro i _ hl
      omega
    have hB : (B - 1) * ranks + rank k + 1 ≤ n + 1 := by omega
    refine (D k).upTo_leading (unroll_eats (fun j => (h j).1) n) (fun j => embed_ends h b n j (B - 1) ?_)
      (fun j hj => embed_ends h b n j B (.inr ?_)) (h k).2.2
    · by_cases h1 : B - 1 = 0
      · exact .inl h1
      · right
        have hr := (h j).2.1
        have : (B - 1) * ranks = (B - 1 - 1) * ranks + ranks := by
          have : B - 1 = (B - 1 - 1) + 1 := by omega
          conv => lhs; rw [this, Nat.add_mul, Nat.one_mul]
        omega
    · have hj : rank j < rank k := hj
      omega

theorem suffices_guarded {D : Decls} {reads : Nat → Prop} {rank : Nat → Nat} {ranks : Nat}
    (h : Guarded D reads rank ranks)
    (n k : Nat) (i : Input) (hi : i.WF) (hn : i.remaining * ranks + rank k + 1 ≤ n) :
    DepthSuffices D n k i := by
  intro b
  rcases embed_ends h b n k (i.remaining + 1) (.inr (by rw [Nat.add_sub_cancel]; omega)) i hi
    (by omega) with ⟨h0, _⟩ | h1
  · exact h0.elim
  · exact h1

theorem embed_hierarchical {D : Decls} {rank : Nat → Nat} (h : Hierarchical D rank) (B : Nat)
    (b : Nat → Ty) : (n k : Nat) → rank k + 1 ≤ n →
      AgreeUpTo False B (embed b D n k) (unroll D n k).decode (unrollWith b D n k).decode
  | 0, k, hn => by omega
  | n + 1, k, hn =>
    (D k).upTo_refs (fun j hj => embed_hierarchical h B b n j (by
      have hj : rank j < rank k := hj
      omega)) (h k)

theorem suffices_hierarchical {D : Decls} {rank : Nat → Nat} (h : Hierarchical D rank)
    (n k : Nat) (i : Input) (hi : i.WF) (hn : rank k + 1 ≤ n) : DepthSuffices D n k i := by
  intro b
  rcases embed_hierarchical h (i.remaining + 1) b n k hn i hi (by omega) with ⟨h0, _⟩ | h1
  · exact h0.elim
  · exact h1

/-- If no declared type contains itself, then some depth is enough for all inputs. -/
theorem unroll_hierarchical1 {D : Decls} {rank : Nat → Nat} (h : Hierarchical D rank) (B : Nat) :
    (n k : Nat) → rank k + 1 ≤ n →
      AgreeUpTo False B (raise1 D n k) (unroll D n k).decode (unroll D (n + 1) k).decode
  | 0, k, hn => by omega
  | n + 1, k, hn =>
    (D k).upTo_refs (fun j hj => unroll_hierarchical1 h B n j (by
      have hj : rank j < rank k := hj
      omega)) (h k)

theorem unroll_hierarchical {D : Decls} {rank : Nat → Nat} (h : Hierarchical D rank)
    (n k : Nat) (i : Input) (hi : i.WF) (hn : rank k + 1 ≤ n) : (j : Nat) →
    (unroll D (n + j) k).decode i
      = (((unroll D n k).decode i).1.map (raise D n j k), ((unroll D n k).decode i).2)
  | 0 => by
    show (unroll D n k).decode i
      = (((unroll D n k).decode i).1.map (fun v => v), ((unroll D n k).decode i).2)
    rw [Res.map_id']
  | j + 1 => by
    have ih := unroll_hierarchical h n k i hi hn j
    rcases unroll_hierarchical1 h (i.remaining + 1) (n + j) k (by omega) i hi (by omega)
      with ⟨h0, _⟩ | h1
    · exact h0.elim
    · rw [ih] at h1
      refine (show (unroll D (n + j + 1) k).decode i = _ from h1).trans ?_
      rw [Res.map_map']
      rfl

/-! Encoding -/

theorem encItems_mapped {α β : Type} {enc : α → Enc Unit} {enc' : β → Enc Unit} {f : α → β}
    (h : ∀ a, enc' (f a) = enc a) (wrap : Nat → EncErr → EncErr) : (i : Nat) → (l : List α) →
    encItems enc' wrap i (l.map f) = encItems enc wrap i l
  | _, [] => rfl
  | i, a :: l => by
    show (enc' (f a)).mapErr (wrap i) >>= (fun _ => encItems enc' wrap (i + 1) (l.map f)) = _
    rw [h, encItems_mapped h wrap (i + 1) l]
    rfl

theorem encSlice_mapped {α β : Type} {enc : α → Enc Unit} {enc' : β → Enc Unit} {f : α → β}
    (h : ∀ a, enc' (f a) = enc a) (l : List α) : encSlice enc' (l.map f) = encSlice enc l := by
  unfold encSlice
  rw [encItems_mapped h, List.length_map]

theorem encLinkedList_mapped {α β : Type} {enc : α → Enc Unit} {enc' : β → Enc Unit} {f : α → β}
    (h : ∀ a, enc' (f a) = enc a) (l : List α) :
    encLinkedList enc' (l.map f) = encLinkedList enc l := by
  unfold encLinkedList
  rw [encItems_mapped h, List.length_map]

theorem encHashMap_mapped {α β γ : Type} {ek : α → Enc Unit} {enc : β → Enc Unit}
    {enc' : γ → Enc Unit} {f : β → γ} (h : ∀ a, enc' (f a) = enc a) : (l : List (α × β)) →
    encHashMap ek enc' (l.map fun p => (p.1, f p.2)) = encHashMap ek enc l
  | [] => rfl
  | (k, v) :: l => by
    show ek k >>= (fun _ => enc' (f v) >>= fun _ => encHashMap ek enc' (l.map fun p => (p.1, f p.2)))
      = _
    rw [h, encHashMap_mapped h l]
    rfl

mutual

theorem RTy.generic_close {σ τ : Nat → Ty} (h : ∀ k, (σ k).encErrGeneric = (τ k).encErrGeneric) :
    (r : RTy) → (r.close σ).encErrGeneric = (r.close τ).encErrGeneric
  | .plain _ => rfl
  | .named k => h k
  | .wrap _ t => t.generic_close h
  | .array _ _ => rfl
  | .seq _ _ => rfl
  | .hashMap _ _ => rfl
  | .option t => t.generic_close h
  | .result t _ => t.generic_close h
  | .bound _ => rfl
  | .range t => t.generic_close h
  | .rangeInclusive t => t.generic_close h
  | .lock _ t => t.generic_close h
  | .refCell _ => rfl
  | .sizedSlice _ _ => rfl
  | .tuple fs => fs.generic_close h

theorem RFields.generic_close {σ τ : Nat → Ty}
    (h : ∀ k, (σ k).encErrGeneric = (τ k).encErrGeneric) :
    (fs : RFields) → (fs.close σ).encErrGeneric = (fs.close τ).encErrGeneric
  | .nil => rfl
  | .cons t _ => t.generic_close h

end

/-- Each unrolling has the error type of the declaration. -/
theorem unroll_generic (D : Decls) : (n k : Nat) →
    (unroll D n k).encErrGeneric = (unroll D (n + 1) k).encErrGeneric
  | 0, k => by
    show (D k).bottom.encErrGeneric = ((D k).close (unroll D 0)).encErrGeneric
    cases D k <;> rfl
  | n + 1, k => by
    show ((D k).close (unroll D n)).encErrGeneric = ((D k).close (unroll D (n + 1))).encErrGeneric
    cases D k <;> rfl

mutual

theorem RTy.encode_lift {σ τ : Nat → Ty} {e : ∀ k, (σ k).Val → (τ k).Val}
    (hg : ∀ k, (σ k).encErrGeneric = (τ k).encErrGeneric)
    (he : ∀ k v, (τ k).encode (e k v) = (σ k).encode v) :
    (r : RTy) → (v : (r.close σ).Val) → (r.close τ).encode (r.lift e v) = (r.close σ).encode v
  | .plain _, _ => rfl
  | .named k, v => he k v
  | .wrap _ t, v => t.encode_lift hg he v
  | .array t _, v => encItems_mapped (t.encode_lift hg he) _ 0 v.val
  | .seq .slice t, v => encSlice_mapped (t.encode_lift hg he) _
  | .seq .vec t, v => encSlice_mapped (t.encode_lift hg he) _
  | .seq .linkedList t, v => encLinkedList_mapped (t.encode_lift hg he) _
  | .hashMap k t, v => encHashMap_mapped (t.encode_lift hg he) _
  | .option t, v =>
    match v with
    | none => rfl
    | some v => congrArg (fun m => encBool true >>= fun _ => m) (t.encode_lift hg he v)
  | .result t u, v =>
    match v with
    | .ok v => congrArg (fun m => encBool false >>= fun _ => m) (t.encode_lift hg he v)
    | .err v => by
      show (encBool true >>= fun _ => Enc.mapErr
          (if (t.close τ).encErrGeneric then EncErr.toGeneric else id)
          ((u.close τ).encode (u.lift e v)))
        = (encBool true >>= fun _ => Enc.mapErr
          (if (t.close σ).encErrGeneric then EncErr.toGeneric else id) ((u.close σ).encode v))
      rw [u.encode_lift hg he v, t.generic_close hg]
  | .bound t, v =>
    match v with
    | .included v =>
      congrArg (fun m => encU8 0 >>= fun _ => Enc.mapErr .badField m) (t.encode_lift hg he v)
    | .excluded v =>
      congrArg (fun m => encU8 1 >>= fun _ => Enc.mapErr .badField m) (t.encode_lift hg he v)
    | .unbounded => rfl
  | .range t, v =>
    congr (congrArg (fun m m' => m >>= fun _ => m') (t.encode_lift hg he v.start))
      (t.encode_lift hg he v.stop)
  | .rangeInclusive t, v =>
    congr (congrArg (fun m m' => m >>= fun _ => m') (t.encode_lift hg he v.start))
      (t.encode_lift hg he v.stop)
  | .lock _ t, v => t.encode_lift hg he v.val
  | .refCell t, v =>
    congrArg (fun m => if v.mutBorrowed then Enc.fail .badBorrow else Enc.mapErr .badValue m)
      (t.encode_lift hg he v.val)
  | .sizedSlice t _, v => encSlice_mapped (t.encode_lift hg he) _
  | .tuple fs, v => fs.encode_lift hg he id v

theorem RFields.encode_lift {σ τ : Nat → Ty} {e : ∀ k, (σ k).Val → (τ k).Val}
    (hg : ∀ k, (σ k).encErrGeneric = (τ k).encErrGeneric)
    (he : ∀ k v, (τ k).encode (e k v) = (σ k).encode v) :
    (fs : RFields) → (g : EncErr → EncErr) → (v : (fs.close σ).Val) →
      (fs.close τ).encode g (fs.lift e v) = (fs.close σ).encode g v
  | .nil, _, _ => rfl
  | .cons t fs, g, v =>
    congr (congrArg (fun m m' => Enc.mapErr g m >>= fun _ => m') (t.encode_lift hg he v.1))
      (fs.encode_lift hg he g v.2)

end

theorem RVariants.encode_lift {σ τ : Nat → Ty} {e : ∀ k, (σ k).Val → (τ k).Val}
    (hg : ∀ k, (σ k).encErrGeneric = (τ k).encErrGeneric)
    (he : ∀ k v, (τ k).encode (e k v) = (σ k).encode v) :
    (vs : RVariants) → (r : Repr) → (prev : Option Nat) → (v : (vs.close σ).Val) →
      (vs.close τ).encode r prev (vs.lift e v) = (vs.close σ).encode r prev v
  | .nil, _, _, v => nomatch v
  | .cons d fs vs, r, prev, v =>
    match v with
    | .inl v =>
      congrArg (fun m => Enc.mapErr .badDiscriminant (encRepr r (nextDisc prev d)) >>= fun _ => m)
        (fs.encode_lift hg he _ v)
    | .inr v => vs.encode_lift hg he r _ v

theorem Decl.encode_lift {σ τ : Nat → Ty} {e : ∀ k, (σ k).Val → (τ k).Val}
    (hg : ∀ k, (σ k).encErrGeneric = (τ k).encErrGeneric)
    (he : ∀ k v, (τ k).encode (e k v) = (σ k).encode v) :
    (d : Decl) → (v : (d.close σ).Val) → (d.close τ).encode (d.lift e v) = (d.close σ).encode v
  | .struct fs, v => fs.encode_lift hg he _ v
  | .enum r vs, v => vs.encode_lift hg he r none v

theorem raise1_encode (D : Decls) : (n k : Nat) → (v : (unroll D n k).Val) →
    (unroll D (n + 1) k).encode (raise1 D n k v) = (unroll D n k).encode v
  | 0, k, v => ((D k).noBottom v).elim
  | n + 1, k, v => (D k).encode_lift (unroll_generic D n) (raise1_encode D n) v

theorem raise_encode (D : Decls) (n k : Nat) (v : (unroll D n k).Val) : (j : Nat) →
    (unroll D (n + j) k).encode (raise D n j k v) = (unroll D n k).encode v
  | 0 => rfl
  | j + 1 => (raise1_encode D (n + j) k (raise D n j k v)).trans (raise_encode D n k v j)

end Oct
