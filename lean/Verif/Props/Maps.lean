import Verif.Proofs.Values
/-
C40: hash maps and hash sets.
-/
namespace Oct.Props
open Oct Spec
set_option linter.unusedVariables false

theorem mapInsert_new {α β : Type} [DecidableEq α] (k : α) (v : β) (l : List (α × β))
    (h : k ∉ l.map Prod.fst) : mapInsert k v l = l ++ [(k, v)] := by
  induction l with
  | nil => rfl
  | cons p l ih =>
    obtain ⟨k', v'⟩ := p
    simp only [List.map_cons, List.mem_cons, not_or] at h
    unfold mapInsert
    rw [if_neg (fun e => h.1 e.symm), ih h.2]
    rfl

theorem decMapLoop_yields {α β : Type} [DecidableEq α] {decK : Dec α} {decV : Dec β}
    (wk : α → List Byte) (wv : β → List Byte) (l : List (α × β)) :
    ∀ (i : Nat) (m : MapVal α β) (hn : ((m.val ++ l).map Prod.fst).Nodup),
    (∀ p ∈ l, Yields decK (wk p.1) (.ok p.1) ∧ Yields decV (wv p.2) (.ok p.2)) →
    Yields (decMapLoop decK decV l.length i m) (l.flatMap fun p => wk p.1 ++ wv p.2)
      (.ok ⟨m.val ++ l, hn⟩) := by
  induction l with
  | nil =>
    intro i m hn h
    have : (⟨m.val ++ [], hn⟩ : MapVal α β) = m := Subtype.ext (List.append_nil _)
    rw [this]
    exact Yields.pure _
  | cons p l ih =>
    intro i m hn h
    obtain ⟨k, v⟩ := p
    have hk : k ∉ m.val.map Prod.fst := by
      rw [List.map_append, List.nodup_append] at hn
      intro hm
      exact hn.2.2 k hm k (by simp) rfl
    have h1 := h (k, v) (by simp)
    have he : mapInsert k v m.val ++ l = m.val ++ (k, v) :: l := by
      rw [mapInsert_new k v m.val hk, List.append_assoc]; rfl
    have h2 := ih (i + 1) ⟨mapInsert k v m.val, mapInsert_nodup k v m.val m.property⟩
      (by simp only [he]; exact hn) (fun p hp => h p (by simp [hp]))
    rw [List.flatMap_cons, List.append_assoc]
    refine (h1.1.mapErr _).bind ((h1.2.mapErr _).bind ?_)
    have e : (⟨mapInsert k v m.val ++ l, by rw [he]; exact hn⟩ : MapVal α β) = ⟨m.val ++ (k, v) :: l, hn⟩ :=
      Subtype.ext he
    rw [← e]
    exact h2

theorem decSetLoop_yields {α : Type} [DecidableEq α] {decK : Dec α}
    (wk : α → List Byte) (l : List α) :
    ∀ (i : Nat) (m : SetVal α) (hn : (m.val ++ l).Nodup),
    (∀ k ∈ l, Yields decK (wk k) (.ok k)) →
    Yields (decSetLoop decK l.length i m) (l.flatMap wk) (.ok ⟨m.val ++ l, hn⟩) := by
  induction l with
  | nil =>
    intro i m hn h
    have : (⟨m.val ++ [], hn⟩ : SetVal α) = m := Subtype.ext (List.append_nil _)
    rw [this]
    exact Yields.pure _
  | cons k l ih =>
    intro i m hn h
    have hk : k ∉ m.val := by
      rw [List.nodup_append] at hn
      intro hm
      exact hn.2.2 k hm k (by simp) rfl
    have he : setInsert k m.val ++ l = m.val ++ k :: l := by
      unfold setInsert
      rw [if_neg hk, List.append_assoc]; rfl
    have h2 := ih (i + 1) ⟨setInsert k m.val, setInsert_nodup k m.val m.property⟩
      (by simp only [he]; exact hn) (fun p hp => h p (by simp [hp]))
    rw [List.flatMap_cons]
    refine ((h k (by simp)).mapErr _).bind ?_
    have e : (⟨setInsert k m.val ++ l, by rw [he]; exact hn⟩ : SetVal α) = ⟨m.val ++ k :: l, hn⟩ :=
      Subtype.ext he
    rw [← e]
    exact h2

/-- C40, as far as it holds. Encoding a map (set) writes its entries (elements), one after the other,
without their number; decoding works on that with the number in front: it gives back the same map
(set). Missing: that encoding writes the number, see `C40_false_empty` and `C40_false_witness`. -/
theorem C40_map_partial (k v : Ty) (m : (Ty.hashMap k v).Val) (wk : k.Val → List Byte)
    (wv : v.Val → List Byte) (hl : m.val.length ≤ 65535)
    (he : ∀ p ∈ m.val, EncodesTo k p.1 (wk p.1) ∧ EncodesTo v p.2 (wv p.2))
    (hd : ∀ p ∈ m.val, Yields k.decode (wk p.1) (.ok p.1) ∧ Yields v.decode (wv p.2) (.ok p.2)) :
    EncodesTo (.hashMap k v) m (m.val.flatMap fun p => wk p.1 ++ wv p.2) ∧
    Yields (Ty.hashMap k v).decode
      (leBytes 2 m.val.length ++ m.val.flatMap fun p => wk p.1 ++ wv p.2) (.ok m) := by
  constructor
  · refine encodesTo' (t := .hashMap k v) (v := m) ?_ ?_
    · intro p hp
      exact ⟨(encodesTo_iff.mp (he p hp).1).1, (encodesTo_iff.mp (he p hp).2).1⟩
    · show m.val.flatMap (fun p => wire k p.1 ++ wire v p.2) = _
      rw [List.flatMap_def, List.flatMap_def]
      congr 1
      apply List.map_congr_left
      intro p hp
      rw [(encodesTo_iff.mp (he p hp).1).2, (encodesTo_iff.mp (he p hp).2).2]
  · refine (decUsize_yields m.val.length hl).bind ?_
    exact decMapLoop_yields wk wv m.val 0 ⟨[], List.nodup_nil⟩ m.property hd

/-- As `C40_map_partial`, for sets. -/
theorem C40_set_partial (k : Ty) (s : (Ty.hashSet k).Val) (wk : k.Val → List Byte)
    (hl : s.val.length ≤ 65535)
    (he : ∀ x ∈ s.val, EncodesTo k x (wk x)) (hd : ∀ x ∈ s.val, Yields k.decode (wk x) (.ok x)) :
    EncodesTo (.hashSet k) s (s.val.flatMap wk) ∧
    Yields (Ty.hashSet k).decode (leBytes 2 s.val.length ++ s.val.flatMap wk) (.ok s) := by
  constructor
  · refine encodesTo' (t := .hashSet k) (v := s) ?_ ?_
    · intro x hx
      exact (encodesTo_iff.mp (he x hx)).1
    · show s.val.flatMap (wire k) = _
      rw [List.flatMap_def, List.flatMap_def]
      congr 1
      apply List.map_congr_left
      intro x hx
      exact (encodesTo_iff.mp (he x hx)).2
  · refine (decUsize_yields s.val.length hl).bind ?_
    exact decSetLoop_yields wk s.val 0 ⟨[], List.nodup_nil⟩ s.property hd

/-- Reading a number stops at the end of the input. -/
theorem decUsize_short (bs : List Byte) (h : bs.length < 2) :
    decUsize (Input.new bs) = (.panic .shortInput, Input.new bs) := by
  have hr : Dec.readInto 2 (Input.new bs) = (.panic .shortInput, Input.new bs) := by
    rw [readInto_eq_read]
    unfold Dec.read Input.read
    rw [if_pos (by simpa [Input.new] using h)]
  show Dec.bind (Dec.readInto 2) _ _ = _
  unfold Dec.bind
  rw [hr]

/-- C40 is false of every type of maps and sets: the empty one is encoded as nothing, which decodes to
nothing. -/
theorem C40_false_empty (k v : Ty) :
    (EncodesTo (.hashMap k v) ⟨[], List.nodup_nil⟩ [] ∧
      ∃ i, (Ty.hashMap k v).decode (Input.new []) = (.panic .shortInput, i)) ∧
    (EncodesTo (.hashSet k) ⟨[], List.nodup_nil⟩ [] ∧
      ∃ i, (Ty.hashSet k).decode (Input.new []) = (.panic .shortInput, i)) := by
  refine ⟨⟨encodesTo' (t := .hashMap k v) (v := ⟨[], List.nodup_nil⟩) (fun _ h => nomatch h) rfl,
    Input.new [], ?_⟩,
    ⟨encodesTo' (t := .hashSet k) (v := ⟨[], List.nodup_nil⟩) (fun _ h => nomatch h) rfl,
    Input.new [], ?_⟩⟩
  · unfold Ty.decode decHashMap
    show Dec.bind decUsize _ _ = _
    unfold Dec.bind
    rw [decUsize_short [] (by decide)]
    rfl
  · unfold Ty.decode decHashSet
    show Dec.bind decUsize _ _ = _
    unfold Dec.bind
    rw [decUsize_short [] (by decide)]
    rfl

/-- C40 is false, quietly: the map `{1: 0, 7: 9}` of octets is encoded as `01 00 07 09`, which decodes
without an error as the map `{7: 9}`. -/
theorem C40_false_witness :
    EncodesTo (.hashMap (.num (.int .u8)) (.num (.int .u8))) ⟨[(1#8, 0#8), (7#8, 9#8)], by decide⟩
      [1, 0, 7, 9] ∧
    (Ty.hashMap (.num (.int .u8)) (.num (.int .u8))).decode (Input.new [1, 0, 7, 9])
      = (.ok ⟨[(7#8, 9#8)], by decide⟩, ⟨[1, 0, 7, 9], 4⟩) := by
  refine ⟨encodesTo' (t := .hashMap (.num (.int .u8)) (.num (.int .u8)))
    (v := ⟨[(1#8, 0#8), (7#8, 9#8)], by decide⟩) ?_ rfl, rfl⟩
  intro p _
  exact ⟨trivial, trivial⟩

example : (Ty.hashSet .bool).decode (Input.new [2, 0, 0, 1])
    = (.ok ⟨[(false : Bool), true], by decide⟩, ⟨[2, 0, 0, 1], 4⟩) := rfl

end Oct.Props
