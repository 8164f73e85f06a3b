import Verif.Proofs.CustomCalls
/- Hash maps and sets whose keys have impls by others. -/
namespace Oct
open Spec
set_option linter.unusedVariables false

/-- The calls one after another. -/
def inTurn : List (Enc Unit) → Enc Unit
  | [] => Enc.pure ()
  | m :: l => m >>= fun _ => inTurn l

theorem bind_ok_of' {m : Enc Unit} {f : Unit → Enc Unit} {o o' : Output} (h : m o = (.ok (), o')) :
    (m >>= f) o = f () o' := by
  show Enc.bind _ _ o = _
  unfold Enc.bind
  rw [h]

theorem bind_stop_of' {m : Enc Unit} {f : Unit → Enc Unit} {o o' : Output} {r : Res EncErr Unit}
    (h : m o = (r, o')) (hr : r ≠ .ok ()) : (m >>= f) o = (r, o') := by
  show Enc.bind _ _ o = _
  unfold Enc.bind
  rw [h]
  cases r with
  | ok u => exact absurd rfl hr
  | _ => rfl

theorem inTurn_calls (l : List (Enc Unit)) (o : Output) :
    (∃ o', Calls id l o o' ∧ inTurn l o = (.ok (), o')) ∨
    ∃ before m after o1 r o2, l = before ++ m :: after ∧ Calls id before o o1 ∧ m o1 = (r, o2) ∧
      r ≠ .ok () ∧ inTurn l o = (r, o2) := by
  induction l generalizing o with
  | nil => exact .inl ⟨o, .nil o, rfl⟩
  | cons m l ih =>
    obtain ⟨⟨r, o1⟩, h⟩ : ∃ x, m o = x := ⟨_, rfl⟩
    by_cases hr : r = .ok ()
    · subst hr
      have e : inTurn (m :: l) o = inTurn l o1 := bind_ok_of' h
      rw [e]
      rcases ih o1 with ⟨o', h1, h2⟩ | ⟨b, x, c, o2, r, o3, h1, h2, h3, h4, h5⟩
      · exact .inl ⟨o', .cons h h1, h2⟩
      · exact .inr ⟨m :: b, x, c, o2, r, o3, by rw [h1]; rfl, .cons h h2, h3, h4, h5⟩
    · exact .inr ⟨[], m, l, o, r, o1, rfl, .nil o, h, hr, bind_stop_of' h hr⟩

theorem encHashMap_inTurn {α β : Type} (encK : α → Enc Unit) (encV : β → Enc Unit) :
    (l : List (α × β)) → encHashMap encK encV l = inTurn (entryCalls encK encV l)
  | [] => rfl
  | (k, v) :: l => by
    unfold encHashMap
    rw [encHashMap_inTurn encK encV l]
    rfl

theorem encHashSet_inTurn {α : Type} (encK : α → Enc Unit) :
    (l : List α) → encHashSet encK l = inTurn (l.map encK)
  | [] => rfl
  | k :: l => by
    unfold encHashSet
    rw [encHashSet_inTurn encK l]
    rfl

/-- The table after entries have been inserted. -/
def inserted {α β : Type} (same : α → α → Bool) (m : List (α × β)) (l : List (α × β)) : List (α × β) :=
  l.foldl (fun m p => tableInsert same p.1 p.2 m) m

/-- The table after keys have been inserted. -/
def added {α : Type} (same : α → α → Bool) (m : List α) (l : List α) : List α :=
  l.foldl (fun m k => tableAdd same k m) m

theorem inserted_distinct {α β : Type} (same : α → α → Bool) (m : List (α × β)) (l : List (α × β))
    (h : Distinct same (m.map Prod.fst)) : Distinct same ((inserted same m l).map Prod.fst) := by
  induction l generalizing m with
  | nil => exact h
  | cons p l ih => exact ih _ (tableInsert_distinct same p.1 p.2 m h)

theorem added_distinct {α : Type} (same : α → α → Bool) (m l : List α) (h : Distinct same m) :
    Distinct same (added same m l) := by
  induction l generalizing m with
  | nil => exact h
  | cons p l ih => exact ih _ (tableAdd_distinct same p m h)

theorem decTableLoop_items {α β : Type} (same : α → α → Bool) (decK : Dec α) (decV : Dec β)
    (n j : Nat) (m : TableVal α β same) (i : Input) :
    decTableLoop same decK decV n j m i
      = ((decItems (decEntry decK decV) n j i).1.map
          (fun l => ⟨inserted same m.val l.val, inserted_distinct same m.val l.val m.property⟩),
        (decItems (decEntry decK decV) n j i).2) := by
  induction n generalizing j m i with
  | zero => rfl
  | succ n ih =>
    simp only [decTableLoop, decItems, decEntry, Bind.bind, Dec.bind, Dec.mapErr]
    generalize decK i = x
    obtain ⟨r, i1⟩ := x
    cases r with
    | ok k =>
      simp only [Res.mapErr_ok]
      generalize decV i1 = y
      obtain ⟨r, i2⟩ := y
      cases r with
      | ok v =>
        simp only [Res.mapErr_ok]
        rw [ih]
        simp only [decEntry, Bind.bind]
        have e : (pure (k, v) : Dec (α × β)) i2 = (.ok (k, v), i2) := rfl
        rw [e]
        simp only [Res.mapErr_ok]
        generalize decItems _ n (j + 1) i2 = z
        obtain ⟨r, i3⟩ := z
        cases r <;> rfl
      | _ => rfl
    | _ => rfl

theorem decTableSetLoop_items {α : Type} (same : α → α → Bool) (decK : Dec α) (n j : Nat)
    (m : TableSet α same) (i : Input) :
    decTableSetLoop same decK n j m i
      = ((decItems decK n j i).1.map
          (fun l => ⟨added same m.val l.val, added_distinct same m.val l.val m.property⟩),
        (decItems decK n j i).2) := by
  induction n generalizing j m i with
  | zero => rfl
  | succ n ih =>
    simp only [decTableSetLoop, decItems, Bind.bind, Dec.bind, Dec.mapErr]
    generalize decK i = x
    obtain ⟨r, i1⟩ := x
    cases r with
    | ok k =>
      simp only [Res.mapErr_ok]
      rw [ih]
      generalize decItems _ n (j + 1) i1 = z
      obtain ⟨r, i3⟩ := z
      cases r <;> rfl
    | _ => rfl

/-- What becomes of the keys. -/
theorem tableInsert_fst {α β : Type} (same : α → α → Bool) (k : α) (v : β) (l : List (α × β)) :
    (tableInsert same k v l).map Prod.fst = tableAdd same k (l.map Prod.fst) := by
  induction l with
  | nil => rfl
  | cons p l ih =>
    obtain ⟨k', v'⟩ := p
    unfold tableInsert
    by_cases h : same k k' = true
    · rw [if_pos h]
      simp [tableAdd, h]
    · rw [if_neg h]
      unfold tableAdd at ih ⊢
      simp only [List.map_cons, List.any_cons, ih]
      have h' : same k k' = false := by simpa using h
      rw [h', Bool.false_or]
      split <;> rfl

theorem inserted_fst {α β : Type} (same : α → α → Bool) (m l : List (α × β)) :
    (inserted same m l).map Prod.fst = added same (m.map Prod.fst) (l.map Prod.fst) := by
  induction l generalizing m with
  | nil => rfl
  | cons p l ih =>
    have := ih (tableInsert same p.1 p.2 m)
    rw [tableInsert_fst] at this
    exact this

theorem firstOnes_mem {α : Type} {same : α → α → Bool} (h : Lawful same) (l : List α) :
    ∀ a ∈ l, ∃ b ∈ firstOnes same l, same a b = true := by
  induction l with
  | nil => exact fun a ha => nomatch ha
  | cons k l ih =>
    intro a ha
    by_cases hk : same a k = true
    · exact ⟨k, by simp [firstOnes], hk⟩
    · rcases List.mem_cons.1 ha with rfl | ha
      · exact absurd (h.refl a) hk
      · obtain ⟨b, h1, h2⟩ := ih a ha
        refine ⟨b, ?_, h2⟩
        refine List.mem_cons_of_mem _ (List.mem_filter.2 ⟨h1, ?_⟩)
        have : same b k ≠ true := fun e => hk (h.trans _ _ _ h2 e)
        simpa using this

theorem firstOnes_sub {α : Type} (same : α → α → Bool) (l : List α) : ∀ a ∈ firstOnes same l, a ∈ l := by
  induction l with
  | nil => exact fun a ha => ha
  | cons k l ih =>
    intro a ha
    rcases List.mem_cons.1 ha with rfl | ha
    · exact List.mem_cons_self
    · exact List.mem_cons_of_mem _ (ih a (List.mem_filter.1 ha).1)

theorem firstOnes_snoc {α : Type} (same : α → α → Bool) (l : List α) (k : α) :
    firstOnes same (l ++ [k]) = if l.any (same k) then firstOnes same l else firstOnes same l ++ [k] := by
  induction l with
  | nil => rfl
  | cons a l ih =>
    rw [List.cons_append]
    unfold firstOnes
    rw [ih, List.any_cons]
    by_cases h : l.any (same k) = true
    · simp [h]
    · have h' : l.any (same k) = false := by simpa using h
      by_cases hk : same k a = true
      · simp [h', hk, List.filter_append]
      · have hk' : same k a = false := by simpa using hk
        simp [h', hk', List.filter_append]

theorem added_nil {α : Type} {same : α → α → Bool} (h : Lawful same) (l : List α) :
    added same [] l = firstOnes same l := by
  have H : ∀ r : List α, added same [] r.reverse = firstOnes same r.reverse := by
    intro r
    induction r with
    | nil => rfl
    | cons k r ih =>
      rw [List.reverse_cons, firstOnes_snoc]
      unfold added at ih ⊢
      rw [List.foldl_append, ih]
      show tableAdd same k (firstOnes same r.reverse) = _
      unfold tableAdd
      have : (firstOnes same r.reverse).any (same k) = r.reverse.any (same k) := by
        rw [Bool.eq_iff_iff, List.any_eq_true, List.any_eq_true]
        constructor
        · rintro ⟨a, h1, h2⟩
          exact ⟨a, firstOnes_sub same _ a h1, h2⟩
        · rintro ⟨a, h1, h2⟩
          obtain ⟨b, h3, h4⟩ := firstOnes_mem h _ a h1
          exact ⟨b, h3, h.trans _ _ _ h2 h4⟩
      rw [this]
  have := H l.reverse
  rwa [List.reverse_reverse] at this

theorem latest_snoc {α β : Type} (same : α → α → Bool) (k : α) (l : List (α × β)) (p : α × β) :
    latest same k (l ++ [p]) = if same p.1 k then some p.2 else latest same k l := by
  unfold latest
  rw [List.reverse_append]
  show ((p :: l.reverse).find? _).map _ = _
  rw [List.find?_cons]
  split <;> rename_i h <;> simp [h]

theorem tableInsert_mem {α β : Type} {same : α → α → Bool} (h : Lawful same) (k : α) (v : β)
    (l : List (α × β)) (hd : Distinct same (l.map Prod.fst)) (p : α × β)
    (hp : p ∈ tableInsert same k v l) :
    (same k p.1 = true ∧ p.2 = v) ∨ (same k p.1 = false ∧ p ∈ l) := by
  induction l with
  | nil =>
    rw [show p = (k, v) from List.mem_singleton.1 hp]
    exact .inl ⟨h.refl k, rfl⟩
  | cons q l ih =>
    obtain ⟨k', v'⟩ := q
    have hd' : (∀ a ∈ l.map Prod.fst, same a k' = false) ∧ Distinct same (l.map Prod.fst) :=
      List.pairwise_cons.1 hd
    unfold tableInsert at hp
    by_cases hk : same k k' = true
    · rw [if_pos hk] at hp
      rcases List.mem_cons.1 hp with rfl | hp
      · exact .inl ⟨hk, rfl⟩
      · refine .inr ⟨?_, List.mem_cons_of_mem _ hp⟩
        have h1 := hd'.1 p.1 (List.mem_map_of_mem hp)
        cases e : same k p.1 with
        | false => rfl
        | true => rw [h.trans _ _ _ (h.symm _ _ e) hk] at h1; exact nomatch h1
    · rw [if_neg hk] at hp
      rcases List.mem_cons.1 hp with rfl | hp
      · exact .inr ⟨by simpa using hk, List.mem_cons_self⟩
      · rcases ih hd'.2 hp with h1 | h1
        · exact .inl h1
        · exact .inr ⟨h1.1, List.mem_cons_of_mem _ h1.2⟩

theorem inserted_latest {α β : Type} {same : α → α → Bool} (h : Lawful same) (l : List (α × β)) :
    ∀ p ∈ inserted same [] l, latest same p.1 l = some p.2 := by
  have H : ∀ r : List (α × β), ∀ p ∈ inserted same [] r.reverse, latest same p.1 r.reverse = some p.2 := by
    intro r
    induction r with
    | nil => exact fun p hp => nomatch hp
    | cons q r ih =>
      intro p hp
      rw [List.reverse_cons] at hp ⊢
      rw [latest_snoc]
      have e : inserted same [] (r.reverse ++ [q]) = tableInsert same q.1 q.2 (inserted same [] r.reverse) := by
        unfold inserted
        rw [List.foldl_append]
        rfl
      rw [e] at hp
      rcases tableInsert_mem h _ _ _ (inserted_distinct same [] _ List.Pairwise.nil) p hp with ⟨h1, h2⟩ | ⟨h1, h2⟩
      · rw [if_pos h1, h2]
      · rw [if_neg (by rw [h1]; exact Bool.false_ne_true)]
        exact ih p h2
  have := H l.reverse
  rwa [List.reverse_reverse] at this

theorem tableInsert_new {α β : Type} (same : α → α → Bool) (k : α) (v : β) (l : List (α × β))
    (h : ∀ a ∈ l.map Prod.fst, same k a = false) : tableInsert same k v l = l ++ [(k, v)] := by
  induction l with
  | nil => rfl
  | cons p l ih =>
    unfold tableInsert
    rw [if_neg (by rw [h p.1 (by simp)]; exact Bool.false_ne_true), ih fun a ha => h a (by
      rw [List.map_cons]; exact List.mem_cons_of_mem _ ha)]
    rfl

theorem inserted_new {α β : Type} (same : α → α → Bool) (m l : List (α × β))
    (h : Distinct same ((m ++ l).map Prod.fst)) : inserted same m l = m ++ l := by
  induction l generalizing m with
  | nil => simp [inserted]
  | cons p l ih =>
    have h' : Distinct same (((m ++ [p]) ++ l).map Prod.fst) := by simpa using h
    have h1 : tableInsert same p.1 p.2 m = m ++ [p] := by
      refine tableInsert_new same p.1 p.2 m fun a ha => ?_
      rw [List.map_append] at h
      exact (List.pairwise_append.1 h).2.2 a ha p.1 (by simp)
    show inserted same (tableInsert same p.1 p.2 m) l = _
    rw [h1, ih _ h', List.append_assoc]
    rfl

theorem added_new {α : Type} (same : α → α → Bool) (m l : List α) (h : Distinct same (m ++ l)) :
    added same m l = m ++ l := by
  induction l generalizing m with
  | nil => simp [added]
  | cons k l ih =>
    have h' : Distinct same ((m ++ [k]) ++ l) := by simpa using h
    have h1 : tableAdd same k m = m ++ [k] := by
      unfold tableAdd
      rw [if_neg]
      have : ∀ a ∈ m, same k a = false := fun a ha => (List.pairwise_append.1 h).2.2 a ha k (by simp)
      simpa using this
    show added same (tableAdd same k m) l = _
    rw [h1, ih _ h', List.append_assoc]
    rfl

/-- Without any law for `==`: nothing is in the table that was not inserted. -/
theorem inserted_sub {α β : Type} (same : α → α → Bool) (m l : List (α × β)) :
    (inserted same m l).length ≤ m.length + l.length ∧
    ∀ p ∈ inserted same m l, p.1 ∈ (m ++ l).map Prod.fst ∧ p.2 ∈ (m ++ l).map Prod.snd := by
  have H : ∀ (k : α) (v : β) (m : List (α × β)), (tableInsert same k v m).length ≤ m.length + 1 ∧
      ∀ p ∈ tableInsert same k v m, (p.1 = k ∨ p.1 ∈ m.map Prod.fst) ∧ (p.2 = v ∨ p.2 ∈ m.map Prod.snd) := by
    intro k v m
    induction m with
    | nil =>
      refine ⟨Nat.le_refl _, fun p hp => ?_⟩
      rw [show p = (k, v) from List.mem_singleton.1 hp]
      exact ⟨.inl rfl, .inl rfl⟩
    | cons q m ih =>
      obtain ⟨k', v'⟩ := q
      unfold tableInsert
      by_cases h : same k k' = true
      · rw [if_pos h]
        refine ⟨by simp, fun p hp => ?_⟩
        rcases List.mem_cons.1 hp with rfl | hp
        · exact ⟨.inr (by simp), .inl rfl⟩
        · exact ⟨.inr (List.mem_cons_of_mem _ (List.mem_map_of_mem hp)),
            .inr (List.mem_cons_of_mem _ (List.mem_map_of_mem hp))⟩
      · rw [if_neg h]
        refine ⟨by simp only [List.length_cons]; omega, fun p hp => ?_⟩
        rcases List.mem_cons.1 hp with rfl | hp
        · exact ⟨.inr (by simp), .inr (by simp)⟩
        · obtain ⟨h1, h2⟩ := ih.2 p hp
          exact ⟨h1.imp_right fun h => List.mem_cons_of_mem _ h, h2.imp_right fun h => List.mem_cons_of_mem _ h⟩
  induction l generalizing m with
  | nil => exact ⟨Nat.le_refl _, fun p hp => by
      rw [List.append_nil]
      exact ⟨List.mem_map_of_mem hp, List.mem_map_of_mem hp⟩⟩
  | cons q l ih =>
    obtain ⟨h1, h2⟩ := ih (tableInsert same q.1 q.2 m)
    have h3 := H q.1 q.2 m
    refine ⟨?_, fun p hp => ?_⟩
    · show (inserted same (tableInsert same q.1 q.2 m) l).length ≤ _
      simp only [List.length_cons]
      omega
    · obtain ⟨h4, h5⟩ := h2 p hp
      rw [List.map_append, List.mem_append] at h4 h5
      refine ⟨?_, ?_⟩
      · rw [List.map_append, List.mem_append, List.map_cons, List.mem_cons]
        rcases h4 with h4 | h4
        · obtain ⟨x, hx, e⟩ := List.mem_map.1 h4
          rcases (h3.2 x hx).1 with h | h
          · exact .inr (.inl (e ▸ h))
          · exact .inl (e ▸ h)
        · exact .inr (.inr h4)
      · rw [List.map_append, List.mem_append, List.map_cons, List.mem_cons]
        rcases h5 with h4 | h4
        · obtain ⟨x, hx, e⟩ := List.mem_map.1 h4
          rcases (h3.2 x hx).2 with h | h
          · exact .inr (.inl (e ▸ h))
          · exact .inl (e ▸ h)
        · exact .inr (.inr h4)

theorem decTable_gets {α β : Type} (same : α → α → Bool) (decK : Dec α) (decV : Dec β) (i i0 : Input)
    (n : Nat) (hn : decUsize i = (.ok n, i0)) :
    (∃ l i', l.length = n ∧ Gets (decEntry decK decV) l i0 i' ∧
      ∃ m : TableVal α β same, m.val = inserted same [] l ∧ decTable same decK decV i = (.ok m, i')) ∨
    ∃ before i1 r i2, before.length < n ∧ Gets (decEntry decK decV) before i0 i1 ∧
      decEntry decK decV i1 = (r, i2) ∧
      ∃ r', reported (fun e => .badItem (.item before.length e)) r = some r' ∧
        decTable same decK decV i = (r', i2) := by
  have e : decTable same decK decV i
      = decTableLoop same decK decV n 0 ⟨[], List.Pairwise.nil⟩ i0 := by
    show Dec.bind _ _ i = _
    unfold Dec.bind
    rw [hn]
  rw [e, decTableLoop_items]
  rcases decItems_gets (decEntry decK decV) n 0 i0 with
    ⟨l, i', h0, h1, h2⟩ | ⟨b, i1, r, i2, h0, h1, h2, r', h3, h4⟩
  · rw [h2]
    exact .inl ⟨l.val, i', h0, h1, _, rfl, rfl⟩
  · rw [h4]
    refine .inr ⟨b, i1, r, i2, h0, h1, h2, ?_⟩
    rw [Nat.zero_add] at h3
    cases r <;> cases h3 <;> exact ⟨_, rfl, rfl⟩

theorem decTableSet_gets {α : Type} (same : α → α → Bool) (decK : Dec α) (i i0 : Input)
    (n : Nat) (hn : decUsize i = (.ok n, i0)) :
    (∃ l i', l.length = n ∧ Gets decK l i0 i' ∧
      ∃ m : TableSet α same, m.val = added same [] l ∧ decTableSet same decK i = (.ok m, i')) ∨
    ∃ before i1 r i2, before.length < n ∧ Gets decK before i0 i1 ∧ decK i1 = (r, i2) ∧
      ∃ r', reported (fun e => .badItem (.item before.length e)) r = some r' ∧
        decTableSet same decK i = (r', i2) := by
  have e : decTableSet same decK i = decTableSetLoop same decK n 0 ⟨[], List.Pairwise.nil⟩ i0 := by
    show Dec.bind _ _ i = _
    unfold Dec.bind
    rw [hn]
  rw [e, decTableSetLoop_items]
  rcases decItems_gets decK n 0 i0 with ⟨l, i', h0, h1, h2⟩ | ⟨b, i1, r, i2, h0, h1, h2, r', h3, h4⟩
  · rw [h2]
    exact .inl ⟨l.val, i', h0, h1, _, rfl, rfl⟩
  · rw [h4]
    refine .inr ⟨b, i1, r, i2, h0, h1, h2, ?_⟩
    rw [Nat.zero_add] at h3
    cases r <;> cases h3 <;> exact ⟨_, rfl, rfl⟩

theorem decTable_decodes {α β : Type} (same : α → α → Bool) {decK : Dec α} {decV : Dec β}
    {w : α × β → List Byte} {c : α × β → α × β} (l : List (α × β)) (hl : l.length ≤ 65535)
    (h : ∀ p ∈ l, Decodes (decEntry decK decV) (w p) (c p)) :
    Decodes (decTable same decK decV) (leBytes 2 l.length ++ l.flatMap w)
      ⟨inserted same [] (l.map c), inserted_distinct same [] _ List.Pairwise.nil⟩ := by
  refine (decUsize_decodes l.length hl).bind ?_
  intro pre rest
  rw [decTableLoop_items, decItems_decodes l.length l rfl h 0]
  rfl

theorem decTableSet_decodes {α : Type} (same : α → α → Bool) {decK : Dec α}
    {w : α → List Byte} {c : α → α} (l : List α) (hl : l.length ≤ 65535)
    (h : ∀ k ∈ l, Decodes decK (w k) (c k)) :
    Decodes (decTableSet same decK) (leBytes 2 l.length ++ l.flatMap w)
      ⟨added same [] (l.map c), added_distinct same [] _ List.Pairwise.nil⟩ := by
  refine (decUsize_decodes l.length hl).bind ?_
  intro pre rest
  rw [decTableSetLoop_items, decItems_decodes l.length l rfl h 0]
  rfl

end Oct
