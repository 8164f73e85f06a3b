import Verif.Spec.Scarce
import Verif.Proofs.Accepts
/-
What was asked for by the time a value has been decoded.
-/
namespace Oct
open Spec
set_option linter.unusedVariables false
variable {α β : Type}

/-- If a value comes, what was asked for is as `K` tells. -/
def Asked (K : α → List Nat → Prop) (m : Scarce α) : Prop :=
  ∀ I before v I' asked, m I before = (.came (.ok v), I', asked) → ∃ l, asked = before ++ l ∧ K v l

namespace Asked
variable {K : α → List Nat → Prop} {m : Scarce α}

theorem of {d : Dec α} (h : ∀ v, K v []) : Asked K (Scarce.of d) := by
  intro I before v I' asked e
  simp only [Scarce.of, Prod.mk.injEq] at e
  exact ⟨[], by simp [e.2.2], h v⟩

theorem ret {v : α} (h : K v []) : Asked K (Scarce.of (pure v)) := by
  intro I before v' I' asked e
  have e1 : v = v' := by
    have := congrArg Prod.fst e
    exact Res.ok.inj (ScarceEnd.came.inj this)
  subst e1
  exact ⟨[], by simpa [Scarce.of] using (congrArg (fun x => x.2.2) e).symm, h⟩

theorem ask (g : Allocator) (n : Nat) : Asked (fun _ l => l = once n) (Scarce.ask g n) := by
  intro I before v I' asked e
  unfold Scarce.ask at e
  unfold once
  by_cases hn : n = 0
  · rw [if_pos hn] at e
    exact ⟨[], by simpa using (congrArg (fun x => x.2.2) e).symm, by rw [if_pos hn]⟩
  · rw [if_neg hn] at e
    cases hg : g before n with
    | true =>
      rw [hg, if_pos rfl] at e
      exact ⟨[n], by simpa using (congrArg (fun x => x.2.2) e).symm, by rw [if_neg hn]⟩
    | false =>
      rw [hg, if_neg (by simp)] at e
      have := congrArg Prod.fst e
      cases this

theorem mono {K' : α → List Nat → Prop} (h : Asked K m) (hk : ∀ v l, K v l → K' v l) : Asked K' m :=
  fun I before v I' asked e => by
    obtain ⟨l, h1, h2⟩ := h I before v I' asked e
    exact ⟨l, h1, hk v l h2⟩

theorem mapErr (h : Asked K m) (f : DecErr → DecErr) : Asked K (m.mapErr f) := by
  intro I before v I' asked e
  unfold Scarce.mapErr at e
  generalize hm : m I before = q at e
  obtain ⟨r, x⟩ := q
  cases r with
  | aborted => cases congrArg Prod.fst e
  | came r =>
    cases r with
    | ok a =>
      apply h I before v I' asked
      rw [hm]
      exact e
    | err _ => cases congrArg Prod.fst e
    | panic _ => cases congrArg Prod.fst e
    | ub _ => cases congrArg Prod.fst e

theorem bind {f : α → Scarce β} {K' : β → List Nat → Prop} (h : Asked K m)
    (hf : ∀ a l, K a l → Asked (fun b l' => K' b (l ++ l')) (f a)) : Asked K' (m.bind f) := by
  intro I before v I' asked e
  unfold Scarce.bind at e
  generalize hm : m I before = q at e
  obtain ⟨r, I1, asked1⟩ := q
  cases r with
  | aborted => cases congrArg Prod.fst e
  | came r =>
    cases r with
    | ok a =>
      obtain ⟨l, h1, h2⟩ := h I before a I1 asked1 hm
      obtain ⟨l', h3, h4⟩ := hf a l h2 I1 asked1 v I' asked e
      exact ⟨l ++ l', by rw [h3, h1, List.append_assoc], h4⟩
    | err _ => cases congrArg Prod.fst e
    | panic _ => cases congrArg Prod.fst e
    | ub _ => cases congrArg Prod.fst e

theorem map {f : α → β} {K' : β → List Nat → Prop} (h : Asked K m) (hk : ∀ a l, K a l → K' (f a) l) :
    Asked K' (m.map f) :=
  h.bind fun a l ha => ret (by rw [List.append_nil]; exact hk a l ha)

/-- Nothing is asked for before. -/
theorem after {d : Dec α} {f : α → Scarce β} {K' : β → List Nat → Prop} (hf : ∀ a, Asked K' (f a)) :
    Asked K' ((Scarce.of d).bind f) :=
  (of (K := fun _ l => l = []) fun _ => rfl).bind fun a l hl => by subst hl; exact hf a

theorem ite {p : Prop} [Decidable p] {m' : Scarce α} (h : Asked K m) (h' : Asked K m') :
    Asked K (if p then m else m') := by
  split
  · exact h
  · exact h'

/-- What is asked for once the value is there. -/
theorem hold (g : Allocator) (h : Asked K m) (n : α → Nat) {K' : α → List Nat → Prop}
    (hk : ∀ a l, K a l → K' a (l ++ once (n a))) :
    Asked K' (m.bind fun a => (Scarce.ask g (n a)).bind fun _ => Scarce.of (pure a)) :=
  h.bind fun a l ha => (ask g (n a)).bind fun _ l' hl => ret (by subst hl; simpa using hk a l ha)

end Asked

theorem scarceItems_asked (g : Allocator) (node : Nat) {K : α → List Nat → Prop} {m : Scarce α} (h : Asked K m) :
    ∀ n i, Asked (fun v l => AskEach K node v.val l) (scarceItems g node m n i)
  | 0, _ => .ret .nil
  | n + 1, i => (h.mapErr _).bind fun v l hv => (Asked.ask g node).bind fun _ l' hl =>
      (scarceItems_asked g node h n (i + 1)).map fun vs l'' hs => by
        subst hl
        simpa using AskEach.cons hv hs

theorem scarceVec_asked (g : Allocator) (size : Nat) {K : α → List Nat → Prop} {m : Scarce α} (h : Asked K m) :
    Asked (fun v l => AskBoth (· = once (v.length * size)) (AskEach K 0 v) l) (scarceVec g size m) :=
  .after fun len => (Asked.ask g _).bind fun _ l hl => (scarceItems_asked g 0 h len 0).map fun vs l' hs =>
    ⟨l, l', rfl, by rw [hl, vs.property], hs⟩

theorem scarceSized_asked (g : Allocator) {K : α → List Nat → Prop} {m : Scarce α} (h : Asked K m) (n : Nat) :
    Asked (fun v l => ∃ items : List α, items.length = n ∧ v.val <+: items ∧ AskEach K 0 items l)
      (scarceSized g m n) :=
  .after fun len => .ite (by
    intro I before v I' asked e
    cases congrArg Prod.fst e) ((scarceItems_asked g 0 h n 0).map fun vs l hs =>
      ⟨vs.val, vs.property, List.take_prefix _ _, hs⟩)

theorem scarceMapLoop_asked [DecidableEq α] {K : α → List Nat → Prop} {m : Scarce α} (h : Asked K m)
    {K' : β → List Nat → Prop} {m' : Scarce β} (h' : Asked K' m') : ∀ n i s,
    Asked (fun v l => ∃ ps : List (α × β), ps.length = n ∧
      v.val = ps.foldl (fun m p => mapInsert p.1 p.2 m) s.val ∧
      AskEach (fun p => AskBoth (K p.1) (K' p.2)) 0 ps l) (scarceMapLoop m m' n i s)
  | 0, _, s => .ret ⟨[], rfl, rfl, .nil⟩
  | n + 1, i, s => (h.mapErr _).bind fun k l hk => (h'.mapErr _).bind fun v l' hv =>
      (scarceMapLoop_asked h h' n _ _).mono fun r l'' ⟨ps, h1, h2, h3⟩ =>
        ⟨(k, v) :: ps, by simp [h1], h2, by
          have := AskEach.cons (node := 0) (A := fun p : α × β => AskBoth (K p.1) (K' p.2)) (x := (k, v))
            ⟨l, l', rfl, hk, hv⟩ h3
          simpa [once] using this⟩

theorem scarceSetLoop_asked [DecidableEq α] {K : α → List Nat → Prop} {m : Scarce α} (h : Asked K m) : ∀ n i s,
    Asked (fun v l => ∃ ks : List α, ks.length = n ∧ v.val = ks.foldl (fun m k => setInsert k m) s.val ∧
      AskEach K 0 ks l) (scarceSetLoop m n i s)
  | 0, _, s => .ret ⟨[], rfl, rfl, .nil⟩
  | n + 1, i, s => (h.mapErr _).bind fun k l hk =>
      (scarceSetLoop_asked h n _ _).mono fun r l'' ⟨ks, h1, h2, h3⟩ =>
        ⟨k :: ks, by simp [h1], h2, by simpa [once] using AskEach.cons (node := 0) hk h3⟩

theorem once_if (n m : Nat) : once (if n = 0 then 0 else m) = if n = 0 then [] else once m := by
  split
  · rfl
  · rfl

theorem scarceHashMap_asked [DecidableEq α] (g : Allocator) (table : Nat → Nat) {K : α → List Nat → Prop}
    {m : Scarce α} (h : Asked K m) {K' : β → List Nat → Prop} {m' : Scarce β} (h' : Asked K' m') :
    Asked (fun v l => ∃ ps : List (α × β), MapOf ps v.val ∧
      AskBoth (· = if ps.length = 0 then [] else once (table ps.length))
        (AskEach (fun p => AskBoth (K p.1) (K' p.2)) 0 ps) l) (scarceHashMap g table m m') :=
  .after fun len => (Asked.ask g _).bind fun _ l hl => (scarceMapLoop_asked h h' len 0 _).mono
    fun r l' ⟨ps, h1, h2, h3⟩ => ⟨ps, by rw [h2]; exact mapInsert_foldl ps, l, l', rfl, by
      rw [hl, once_if, h1], h3⟩

theorem scarceHashSet_asked [DecidableEq α] (g : Allocator) (table : Nat → Nat) {K : α → List Nat → Prop}
    {m : Scarce α} (h : Asked K m) :
    Asked (fun v l => ∃ ks : List α, v.val = firsts ks ∧
      AskBoth (· = if ks.length = 0 then [] else once (table ks.length)) (AskEach K 0 ks) l)
      (scarceHashSet g table m) :=
  .after fun len => (Asked.ask g _).bind fun _ l hl => (scarceSetLoop_asked h len 0 _).mono
    fun r l' ⟨ks, h1, h2, h3⟩ => ⟨ks, by rw [h2]; exact setInsert_foldl ks, l, l', rfl, by
      rw [hl, once_if, h1], h3⟩

mutual

theorem Ty.scarce_asked (H : HeapOf) (g : Allocator) : (t : Ty) → Asked (Asks H t) (t.scarce H g)
  | .num _ | .bool | .char | .usize | .isize | .nonZero _ | .unit _ | .infallible | .duration | .systemTime _
  | .ipv4 | .ipv6 | .ipAddr | .socketAddrV4 | .socketAddrV6 | .socketAddr | .sizedStr _ => .of fun _ => rfl
  | .wrap .box t | .wrap .rc t | .wrap .arc t => (t.scarce_asked H g).hold g _ fun a l h => ⟨l, _, rfl, h, rfl⟩
  | .wrap .ref t | .wrap .refMut t | .wrap .tuple1 t | .wrap .cell t | .wrap .cow t | .wrap .lazyCell t
  | .wrap .lazyLock t | .wrap .rangeFrom t | .wrap .rangeTo t | .wrap .rangeToInclusive t | .wrap .saturating t
  | .wrap .wrapping t | .wrap .atomic t => (t.scarce_asked H g).hold g _ fun a l h => by
      rw [show once (H.wrapped _ _) = [] from rfl, List.append_nil]; exact h
  | .array t n => scarceItems_asked g 0 (t.scarce_asked H g) n 0
  | .seq .linkedList t => .after fun len => (scarceItems_asked g _ (t.scarce_asked H g) len 0).map fun _ _ h => h
  | .seq .vec t | .seq .slice t => scarceVec_asked g _ (t.scarce_asked H g)
  | .hashMap k v => @scarceHashMap_asked _ _ k.decEq g _ _ _ (k.scarce_asked H g) _ _ (v.scarce_asked H g)
  | .hashSet k => @scarceHashSet_asked _ k.decEq g _ _ _ (k.scarce_asked H g)
  | .option t => .after fun _ => .ite ((t.scarce_asked H g).map fun _ _ h => h) (.ret rfl)
  | .result t e => .after fun _ => .ite (((e.scarce_asked H g).mapErr _).map fun _ _ h => h)
      (((t.scarce_asked H g).mapErr _).map fun _ _ h => h)
  | .bound t => .after fun _ => .ite (((t.scarce_asked H g).mapErr _).map fun _ _ h => h)
      (.ite (((t.scarce_asked H g).mapErr _).map fun _ _ h => h) (.ite (.ret rfl) (by
        intro I before v I' asked e
        cases congrArg Prod.fst e)))
  | .range t => (t.scarce_asked H g).bind fun _ l h => (t.scarce_asked H g).map fun _ l' h' => ⟨l, l', rfl, h, h'⟩
  | .rangeInclusive t =>
    (t.scarce_asked H g).bind fun _ l h => (t.scarce_asked H g).map fun _ l' h' => ⟨l, l', rfl, h, h'⟩
  | .lock k t => (t.scarce_asked H g).map fun _ _ h => h
  | .refCell t => (t.scarce_asked H g).map fun _ _ h => h
  | .str _ => .after fun s => (Asked.ask g _).bind fun _ l hl => .ret (by
      subst hl
      exact List.append_nil _)
  | .cStr _ => .after fun s => (Asked.ask g _).bind fun _ l hl => (Asked.ask g _).bind fun _ l' hl' => .ret (by
      subst hl; subst hl'
      show _ = _
      rw [List.append_nil]
      rfl)
  | .sizedSlice t n => scarceSized_asked g (t.scarce_asked H g) n
  | .tuple fs => fs.scarce_asked H g _
  | .struct fs => fs.scarce_asked H g _
  | .enum r vs => .after fun x => vs.scarce_asked H g none x

theorem Fields.scarce_asked (H : HeapOf) (g : Allocator) : (fs : Fields) → ∀ e,
    Asked (AsksFields H fs) (fs.scarce H g e)
  | .nil, _ => .ret rfl
  | .cons t fs, e => ((t.scarce_asked H g).mapErr e).bind fun _ l h => (fs.scarce_asked H g e).map fun _ l' h' =>
      ⟨l, l', rfl, h, h'⟩

theorem Variants.scarce_asked (H : HeapOf) (g : Allocator) : (vs : Variants) → ∀ p x,
    Asked (AsksVariants H vs) (vs.scarce H g p x)
  | .nil, _, _ => by
    intro I before v I' asked e
    cases congrArg Prod.fst e
  | .cons d fs vs, p, x => by
    unfold Variants.scarce
    exact .ite ((fs.scarce_asked H g _).map fun _ _ h => h) ((vs.scarce_asked H g _ _).map fun _ _ h => h)

end

end Oct
