import Verif.Proofs.StackKept
/-
References that are not what a method makes last.
-/
namespace Oct.Alias
open Spec Sound

/-- Nothing is written, and no `&mut` is made. -/
def Calmly (es : List Event) : Prop := ∀ e ∈ es, match e with
  | .write _ _ => False
  | .retag k _ _ _ => k = .shared
  | .read _ _ => True

theorem Calmly.unclaimed {es : List Event} (h : Calmly es) (l : Nat) : ¬ ClaimedAt es l := fun hc => by
  rcases hc with ⟨_, _, h1, _⟩ | ⟨_, _, _, h1, _⟩
  · exact h _ h1
  · exact nomatch (h _ h1 : Kind.excl = .shared)

theorem Calmly.nil : Calmly [] := fun _ h => nomatch h

theorem Calmly.append {es fs : List Event} (h : Calmly es) (h' : Calmly fs) : Calmly (es ++ fs) := fun e he =>
  (List.mem_append.mp he).elim (h e) (h' e)

theorem writtenAt_append {es fs : List Event} {l : Nat} : WrittenAt (es ++ fs) l ↔ WrittenAt es l ∨ WrittenAt fs l := by
  constructor
  · rintro ⟨t, r, h, hr⟩
    rcases List.mem_append.mp h with h | h
    · exact .inl ⟨t, r, h, hr⟩
    · exact .inr ⟨t, r, h, hr⟩
  · rintro (⟨t, r, h, hr⟩ | ⟨t, r, h, hr⟩)
    · exact ⟨t, r, List.mem_append_left _ h, hr⟩
    · exact ⟨t, r, List.mem_append_right _ h, hr⟩

theorem claimedAt_append {es fs : List Event} {l : Nat} : ClaimedAt (es ++ fs) l ↔ ClaimedAt es l ∨ ClaimedAt fs l := by
  constructor
  · rintro (h | ⟨t, q, r, h, hr⟩)
    · exact (writtenAt_append.mp h).imp .inl .inl
    · rcases List.mem_append.mp h with h | h
      · exact .inl (.inr ⟨t, q, r, h, hr⟩)
      · exact .inr (.inr ⟨t, q, r, h, hr⟩)
  · rintro ((h | ⟨t, q, r, h, hr⟩) | (h | ⟨t, q, r, h, hr⟩))
    · exact .inl (writtenAt_append.mpr (.inl h))
    · exact .inr ⟨t, q, r, List.mem_append_left _ h, hr⟩
    · exact .inl (writtenAt_append.mpr (.inr h))
    · exact .inr ⟨t, q, r, List.mem_append_right _ h, hr⟩

variable {σ κ : Type} (D : Device σ κ)

/-- What a call returned as a shared reference, under both. -/
theorem Device.both {p : Place} {o : σ} {cs ds : List κ} {c : κ} {k i n u : Nat} {pre post : List Event} {r r' : Region}
    (h0 : D.next o = 2) (he : (D.go (D.after o cs) c).2 = pre ++ .retag .shared u n r :: post)
    (hp : Counts (D.next (D.after o cs)) pre n) (hq : Counts (n + 1) post (D.next (D.go (D.after o cs) c).1))
    (hx : (D.held (D.go (D.after o cs) c).1)[k]? = some ⟨n, r'⟩) (ha : r.has (r'.lo + i) = true)
    (hc : ¬ ClaimedAt post (r'.lo + i)) :
    (Defined Tree p (D.events o (cs ++ c :: ds)) → (Defined Tree p (D.events o (cs ++ c :: (ds ++ [D.get k i]))) ↔
      ¬ WrittenAt (D.events (D.go (D.after o cs) c).1 ds) (r'.lo + i))) ∧
    (Defined Stacked p (D.events o (cs ++ c :: ds)) → (Defined Stacked p (D.events o (cs ++ c :: (ds ++ [D.get k i]))) ↔
      ¬ ClaimedAt (D.events (D.go (D.after o cs) c).1 ds) (r'.lo + i))) := by
  have e1 : D.events o (cs ++ c :: ds) = (D.events o cs ++ pre ++ [.retag .shared u n r]) ++
      (post ++ D.events (D.go (D.after o cs) c).1 ds) := by
    rw [D.events_append]
    show _ ++ ((D.go (D.after o cs) c).2 ++ _) = _
    rw [he]
    simp only [List.append_assoc, List.cons_append, List.nil_append]
  have e2 : D.events o (cs ++ c :: (ds ++ [D.get k i])) = (D.events o cs ++ pre ++ [.retag .shared u n r]) ++
      (post ++ D.events (D.go (D.after o cs) c).1 ds) ++ [.read n ⟨r'.lo + i, 1⟩] := by
    rw [D.events_append]
    show _ ++ ((D.go (D.after o cs) c).2 ++ D.events _ (ds ++ _)) = _
    rw [D.events_append, D.look (D.still hx ds), he]
    simp only [List.append_assoc, List.cons_append, List.nil_append]
  have c1 : Counts 2 (D.events o cs ++ pre) n := (h0 ▸ D.events_counts o cs : Counts 2 _ _).append hp
  have c2 := hq.append (D.events_counts (D.go (D.after o cs) c).1 ds)
  rw [e1, e2]
  refine ⟨fun h => (tree_exactly c1 c2 ha h).trans ?_, fun h => (stacked_exactly c1 c2 ha h).trans ?_⟩
  · rw [writtenAt_append]
    exact ⟨fun h h' => h (.inr h'), fun h h' => h'.elim (fun h' => hc (.inl h')) h⟩
  · rw [claimedAt_append]
    exact ⟨fun h h' => h (.inr h'), fun h h' => h'.elim hc h⟩

/-! `each_ref`. -/

theorem asPtr_calmly (s : Place) (self t : Nat) : Calmly (s.asPtr self t).2.2 := fun e he => by
  have he' : e ∈ [Event.retag .shared self t s.whole, .retag .shared t (t + 1) s.buf, .retag .shared (t + 1) (t + 2) s.buf] := he
  simp only [List.mem_cons, List.not_mem_nil, or_false] at he'
  rcases he' with rfl | rfl | rfl <;> rfl

theorem refs_calmly (s : Place) (self : Nat) : ∀ k t, Calmly (s.refs self k t).2.2
  | 0, _ => fun _ h => nomatch h
  | k + 1, t => (asPtr_calmly s self t).append (by
      refine (refs_calmly s self k (t + 3)).append fun _ h => nomatch h)

/-- The `j`-th turn of the loop. -/
theorem refs_split (s : Place) (self : Nat) : ∀ (k t j : Nat), j < k → ∃ pre u g post,
    (s.refs self k t).2.2 = pre ++ .retag .shared u g s.buf :: post ∧ Counts t pre g ∧
    Counts (g + 1) post (s.refs self k t).2.1 ∧ Calmly post ∧ (s.refs self k t).1[j]? = some g
  | 0, _, _, h => absurd h (Nat.not_lt_zero _)
  | k + 1, t, 0, _ => by
    refine ⟨[_, _], t + 1, t + 2, (s.refs self k (t + 3)).2.2 ++ [], rfl, .retag (.retag .nil), ?_, ?_, rfl⟩
    · exact (refs_counted s self k (t + 3)).append .nil
    · exact (refs_calmly s self k (t + 3)).append fun _ h => nomatch h
  | k + 1, t, j + 1, h => by
    obtain ⟨pre, u, g, post, e1, e2, e3, e4, e5⟩ := refs_split s self k (t + 3) j (by omega)
    refine ⟨(s.asPtr self t).2.2 ++ pre, u, g, post ++ [], ?_, (asPtr_counted s self t).append e2, e3.append .nil,
      e4.append (fun _ h => nomatch h), e5⟩
    show (s.asPtr self t).2.2 ++ ((s.refs self k (t + 3)).2.2 ++ []) = _
    rw [e1]
    simp only [List.append_assoc, List.cons_append]

theorem single_get (s : Place) : ∀ (ts : List Nat) (i j g : Nat), ts[j]? = some g →
    (single s i ts)[j]? = some ⟨g, ⟨s.at_ + (i + j), 1⟩⟩
  | [], _, _, _, h => by simp at h
  | t :: ts, i, 0, g, h => by
    simp only [List.getElem?_cons_zero, Option.some.injEq] at h
    subst h
    rfl
  | t :: ts, i, j + 1, g, h => by
    have := single_get s ts (i + 1) j g (by simpa using h)
    simp only [single, List.getElem?_cons_succ]
    rw [this, show i + 1 + j = i + (j + 1) by omega]

theorem eachRef_split (s : Place) (d : Nat) (o : Owner) (j : Nat) (hj : j < o.len) : ∃ pre u g post,
    (Call.go s d o .eachRef).2 = pre ++ .retag .shared u g s.buf :: post ∧ Counts o.next pre g ∧
    Counts (g + 1) post (Call.go s d o .eachRef).1.next ∧ Calmly post ∧
    (Call.go s d o .eachRef).1.held[o.held.length + j]? = some ⟨g, ⟨s.at_ + j, 1⟩⟩ := by
  obtain ⟨pre, u, g, post, e1, e2, e3, e4, e5⟩ := refs_split s o.next o.len (o.next + 1) j hj
  refine ⟨.retag .shared ownerTag o.next s.whole :: .read o.next s.head :: pre, u, g, post, ?_, .retag (.read e2), e3, e4, ?_⟩
  · show [_] ++ ([_] ++ (s.refs o.next o.len (o.next + 1)).2.2) = _
    rw [e1]
    rfl
  · show (o.held ++ single s 0 (s.refs o.next o.len (o.next + 1)).1)[o.held.length + j]? = _
    rw [List.getElem?_append_right (Nat.le_add_right _ _), Nat.add_sub_cancel_left, single_get s _ 0 j g e5, Nat.zero_add]

end Oct.Alias
