import Verif.Spec.Source
import Verif.Proofs.SizedStr
/- Collecting from any iterator. -/
namespace Oct
open Spec
variable {σ α : Type}

namespace Spec.Gave

theorem append {next : Source σ α} {s1 s2 s3 : σ} {l m : List α} (h : Gave next s1 l s2) :
    Gave next s2 m s3 → Gave next s1 (l ++ m) s3 := by
  induction h with
  | nil s => exact id
  | cons h _ ih => exact fun hm => .cons h (ih hm)

theorem single {next : Source σ α} {s s1 : σ} {a : α} (h : next s = (.ok (some a), s1)) : Gave next s [a] s1 :=
  .cons h (.nil s1)

/-- What a prefix leads to is in between. -/
theorem split {next : Source σ α} {s3 : σ} {m : List α} : ∀ {l : List α} {s1 : σ},
    Gave next s1 (l ++ m) s3 → ∃ s2, Gave next s1 l s2 ∧ Gave next s2 m s3
  | [], s1, h => ⟨s1, .nil s1, h⟩
  | a :: l, s1, h => by
    cases h with
    | cons h1 h2 =>
      obtain ⟨s2, h3, h4⟩ := split h2
      exact ⟨s2, .cons h1 h3, h4⟩

end Spec.Gave

/-- Any iterator gives some items, up to a number of them, or gives no further one before. -/
theorem gave_upTo (next : Source σ α) : ∀ (n : Nat) (s : σ), ∃ l s1, Gave next s l s1 ∧ l.length ≤ n ∧
    (l.length < n → ∀ a s2, next s1 ≠ (.ok (some a), s2))
  | 0, s => ⟨[], s, .nil s, Nat.le_refl _, fun h => nomatch h⟩
  | n + 1, s => by
    by_cases h : ∃ a s2, next s = (.ok (some a), s2)
    · obtain ⟨a, s2, h⟩ := h
      obtain ⟨l, s1, h1, h2, h3⟩ := gave_upTo next n s2
      exact ⟨a :: l, s1, .cons h h1, Nat.succ_le_succ h2, fun hl => h3 (Nat.lt_of_succ_lt_succ hl)⟩
    · exact ⟨[], s, .nil s, Nat.zero_le _, fun _ a s2 e => h ⟨a, s2, e⟩⟩

namespace SizedSlice

theorem fillSource_full {next : Source σ α} {s s1 : σ} {l : List α} (h : Gave next s l s1) :
    ∀ cells : List (MaybeUninit α), cells.length = l.length →
      fillSource next cells s = (.ok (l.map some, l.length), s1) := by
  induction h with
  | nil s =>
    intro cells hc
    cases List.length_eq_zero_iff.mp hc
    rfl
  | cons h _ ih =>
    intro cells hc
    cases cells with
    | nil => cases hc
    | cons c cells => rw [fillSource, h]; simp only; rw [ih cells (Nat.succ.inj hc)]; rfl

/-- What the loop does when the iterator gives no further item. -/
theorem fillSource_ends {next : Source σ α} {s s1 : σ} {l : List α} (h : Gave next s l s1) :
    ∀ cells : List (MaybeUninit α), l.length < cells.length →
      (∀ s2, next s1 = (.ok none, s2) →
        fillSource next cells s = (.ok (l.map some ++ cells.drop l.length, l.length), s2)) ∧
      (∀ p s2, next s1 = (.panic p, s2) → fillSource next cells s = (.panic p, s2)) ∧
      (∀ u s2, next s1 = (.ub u, s2) → fillSource next cells s = (.ub u, s2)) := by
  induction h with
  | nil s =>
    intro cells hc
    cases cells with
    | nil => cases hc
    | cons c cells =>
      refine ⟨fun s2 h => ?_, fun p s2 h => ?_, fun u s2 h => ?_⟩ <;> (rw [fillSource, h]) <;> rfl
  | cons h _ ih =>
    intro cells hc
    cases cells with
    | nil => cases hc
    | cons c cells =>
      obtain ⟨h1, h2, h3⟩ := ih cells (Nat.lt_of_succ_lt_succ hc)
      refine ⟨fun s2 e => ?_, fun p s2 e => ?_, fun u s2 e => ?_⟩
      · rw [fillSource, h]; simp only; rw [h1 s2 e]; rfl
      · rw [fillSource, h]; simp only; rw [h2 p s2 e]
      · rw [fillSource, h]; simp only; rw [h3 u s2 e]

theorem fromSource_full {next : Source σ α} {s s1 : σ} {l : List α} (h : Gave next s l s1) :
    fromSource next l.length s = (.ok ⟨l.map some, l.length⟩, s1) := by
  unfold fromSource
  rw [fillSource_full h (uninit l.length) List.length_replicate]
  rfl

theorem fromSource_ends {next : Source σ α} {s s1 : σ} {l : List α} (h : Gave next s l s1) {n : Nat}
    (hn : l.length < n) :
    (∀ s2, next s1 = (.ok none, s2) →
      fromSource next n s = (.ok ⟨l.map some ++ List.replicate (n - l.length) none, l.length⟩, s2)) ∧
    (∀ p s2, next s1 = (.panic p, s2) → fromSource next n s = (.panic p, s2)) ∧
    (∀ u s2, next s1 = (.ub u, s2) → fromSource next n s = (.ub u, s2)) := by
  have hu : (uninit n : List (MaybeUninit α)).length = n := List.length_replicate
  obtain ⟨h1, h2, h3⟩ := fillSource_ends h (uninit n) (by rw [hu]; exact hn)
  unfold fromSource
  refine ⟨fun s2 e => ?_, fun p s2 e => ?_, fun u s2 e => ?_⟩
  · rw [h1 s2 e, uninit, List.drop_replicate]
    rfl
  · rw [h2 p s2 e]; rfl
  · rw [h3 u s2 e]; rfl

/-- A slice of the items `l` with room behind them. -/
theorem holds_items (l : List α) (k : Nat) :
    ((⟨l.map some ++ List.replicate k none, l.length⟩ : SizedSlice α).asSlice : Res Empty _) = .ok l ∧
    (⟨l.map some ++ List.replicate k none, l.length⟩ : SizedSlice α).capacity = l.length + k := by
  constructor
  · refine asSlice_ok.mpr ⟨?_, ?_⟩
    · simp
    · exact List.take_left' (List.length_map ..)
  · simp [capacity]

theorem holds_full (l : List α) :
    ((⟨l.map some, l.length⟩ : SizedSlice α).asSlice : Res Empty _) = .ok l ∧
    (⟨l.map some, l.length⟩ : SizedSlice α).capacity = l.length := by
  have := holds_items l 0
  simpa using this

end SizedSlice

/-- The iterator of a list gives its items. -/
theorem gave_list : ∀ l m : List α, Gave listSource (l ++ m) l m
  | [], m => .nil m
  | _ :: l, m => .cons rfl (gave_list l m)

theorem listSource_end : (listSource [] : Res Empty (Option α) × List α) = (.ok none, []) := rfl

namespace SizedStr

theorem collect_step {next : Source σ Char} {n : Nat} {buf : List Byte} {len : Nat} {s s1 : σ} {c : Char}
    (h : next s = (.ok (some c), s1)) (hb : buf.length = n) (hf : len + (charUtf8 c).length ≤ n) :
    collectSource next n buf len s =
      collectSource next n (buf.take len ++ charUtf8 c ++ buf.drop (len + (charUtf8 c).length))
        (len + (charUtf8 c).length) s1 := by
  rw [collectSource, h]
  simp only
  rw [dif_neg (by omega), if_neg (by omega)]

theorem utf8_source (c : Char) (l : List Char) : utf8 (c :: l) = charUtf8 c ++ utf8 l := List.flatMap_cons

/-- What the loop does with chars that fit. -/
theorem collect_gave {next : Source σ Char} {n : Nat} {s s1 : σ} {l : List Char} (h : Gave next s l s1) :
    ∀ (buf : List Byte) (len : Nat), buf.length = n → len + (utf8 l).length ≤ n →
      ∃ buf', buf'.length = n ∧ buf'.take (len + (utf8 l).length) = buf.take len ++ utf8 l ∧
        collectSource next n buf len s = collectSource next n buf' (len + (utf8 l).length) s1 := by
  induction h with
  | nil s =>
    intro buf len hb hl
    exact ⟨buf, hb, by simp [utf8], by simp [utf8]⟩
  | @cons s s1 s2 c l h _ ih =>
    intro buf len hb hl
    rw [utf8_source, List.length_append] at hl
    have hlen1 : (buf.take len ++ charUtf8 c ++ buf.drop (len + (charUtf8 c).length)).length = n := by
      rw [List.length_append, List.length_append, List.length_take, List.length_drop]
      omega
    have htake1 : (buf.take len ++ charUtf8 c ++ buf.drop (len + (charUtf8 c).length)).take
        (len + (charUtf8 c).length) = buf.take len ++ charUtf8 c := by
      apply List.take_left'
      rw [List.length_append, List.length_take]
      omega
    obtain ⟨buf', h1, h2, h3⟩ := ih _ (len + (charUtf8 c).length) hlen1 (by omega)
    refine ⟨buf', h1, ?_, ?_⟩
    · rw [utf8_source, List.length_append, ← Nat.add_assoc, h2, htake1, List.append_assoc]
    · rw [collect_step h hb (by omega), h3, utf8_source, List.length_append, Nat.add_assoc]

/-- The text of a buffer that begins with it. -/
theorem holds_text {n : Nat} {buf : List Byte} {t : List Byte} (hb : buf.length = n) (hn : t.length ≤ n)
    (ht : buf.take t.length = t) :
    ((fromRawParts buf t.length).asBytes : Res Empty _) = .ok t ∧ (fromRawParts buf t.length).capacity = n := by
  constructor
  · rw [fromRawParts_asBytes _ _ (by omega), ht]
  · show (buf.map some).length = n
    rw [List.length_map, hb]

theorem fromSource_ends {next : Source σ Char} {n : Nat} {s s1 : σ} {l : List Char} (h : Gave next s l s1)
    (hn : (utf8 l).length ≤ n) :
    (∀ s2, (next s1 = (.ok none, s2) ∨
        ∃ c, next s1 = (.ok (some c), s2) ∧ n < (utf8 (l ++ [c])).length) →
      ∃ x : SizedStr, fromSource next n s = (.ok x, s2) ∧ x.capacity = n ∧
        (x.asBytes : Res Empty _) = .ok (utf8 l) ∧ x.len = (utf8 l).length) ∧
    (∀ p s2, next s1 = (.panic p, s2) → fromSource next n s = (.panic p, s2)) ∧
    (∀ u s2, next s1 = (.ub u, s2) → fromSource next n s = (.ub u, s2)) := by
  obtain ⟨buf, h1, h2, h3⟩ := collect_gave (n := n) h (List.replicate n 0) 0 List.length_replicate
    (by omega)
  rw [Nat.zero_add] at h2 h3
  rw [List.take_zero, List.nil_append] at h2
  have hx := holds_text h1 hn h2
  unfold fromSource
  rw [h3]
  refine ⟨fun s2 e => ?_, fun p s2 e => ?_, fun u s2 e => ?_⟩
  · rcases e with e | ⟨c, e, hc⟩
    · rw [collectSource, e]
      exact ⟨_, rfl, hx.2, hx.1, rfl⟩
    · rw [collectSource, e]
      simp only
      have : (utf8 (l ++ [c])).length = (utf8 l).length + (charUtf8 c).length := by
        unfold utf8
        rw [List.flatMap_append, List.length_append, List.flatMap_singleton]
        rfl
      rw [dif_pos (by omega)]
      exact ⟨_, rfl, hx.2, hx.1, rfl⟩
  · rw [collectSource, e]; rfl
  · rw [collectSource, e]; rfl

theorem utf8_length_ge : ∀ l : List Char, l.length ≤ (utf8 l).length
  | [] => Nat.le_refl _
  | c :: l => by
    rw [utf8_source, List.length_append, List.length_cons]
    have := charUtf8_pos c
    have := utf8_length_ge l
    omega

/-- Any iterator gives some chars that fit, and then one that does not fit, or no further one. -/
theorem gave_fitting (next : Source σ Char) : ∀ (n : Nat) (s : σ), ∃ l s1, Gave next s l s1 ∧
    (utf8 l).length ≤ n ∧ ∀ c s2, next s1 = (.ok (some c), s2) → n < (utf8 (l ++ [c])).length := by
  intro n
  induction n using Nat.strongRecOn with
  | ind n ih =>
    intro s
    by_cases h : ∃ c s2, next s = (.ok (some c), s2) ∧ (charUtf8 c).length ≤ n
    · obtain ⟨c, s2, h, hc⟩ := h
      have hp := charUtf8_pos c
      obtain ⟨l, s1, h1, h2, h3⟩ := ih (n - (charUtf8 c).length) (by omega) s2
      refine ⟨c :: l, s1, .cons h h1, ?_, fun d s3 e => ?_⟩
      · rw [utf8_source, List.length_append]; omega
      · have := h3 d s3 e
        rw [List.cons_append, utf8_source, List.length_append]
        omega
    · refine ⟨[], s, .nil s, Nat.zero_le _, fun c s2 e => ?_⟩
      rw [List.nil_append, utf8_source, List.length_append]
      have : ¬ (charUtf8 c).length ≤ n := fun hc => h ⟨c, s2, e, hc⟩
      omega

end SizedStr

/-! ## Collecting part by part -/

namespace SizedSlice

theorem parts_spec {next : Source σ α} {n : Nat} (hn : 0 < n) {s1 : σ} (he : next s1 = (.ok none, s1)) :
    ∀ (fuel : Nat) (l : List α) (s : σ), l.length < fuel → Gave next s l s1 →
      ∃ (xs : List (SizedSlice α)) (ls : List (List α)), parts next n fuel s = (.ok xs, s1) ∧
        xs.map (fun x => (x.asSlice : Res Empty _)) = ls.map .ok ∧ ls.flatten = l ∧
        (∀ m ∈ ls, 0 < m.length ∧ m.length ≤ n) ∧ ∀ m ∈ ls.dropLast, m.length = n
  | 0, _, _, h, _ => nomatch h
  | fuel + 1, l, s, hf, h => by
    by_cases hl : l.length < n
    · have h1 := (fromSource_ends h hl).1 s1 he
      rw [parts, h1]
      simp only
      cases l with
      | nil =>
        exact ⟨[], [], if_pos rfl, rfl, rfl, (fun _ hm => nomatch hm), fun _ hm => nomatch hm⟩
      | cons a l =>
        rw [if_neg (by simp [isEmpty])]
        obtain ⟨xs, ls, h2, h3, h4, h5, h6⟩ := parts_spec hn he fuel [] s1
          (by rw [List.length_nil]; rw [List.length_cons] at hf; omega) (.nil s1)
        have hls : ls = [] := by
          cases ls with
          | nil => rfl
          | cons m ls =>
            have := (h5 m List.mem_cons_self).1
            rw [List.flatten_cons, List.append_eq_nil_iff] at h4
            rw [h4.1] at this
            cases this
        subst hls
        have hxs : xs = [] := by simpa using h3
        subst hxs
        rw [h2]
        refine ⟨_, [a :: l], rfl, ?_, by simp, ?_, fun m hm => by simp at hm⟩
        · exact congrArg (fun x => [x]) (holds_items (a :: l) _).1
        · intro m hm
          cases List.mem_singleton.mp hm
          exact ⟨Nat.succ_pos _, Nat.le_of_lt hl⟩
    · obtain ⟨s2, h1, h2⟩ := Spec.Gave.split (l := l.take n) (m := l.drop n)
        (by rw [List.take_append_drop]; exact h)
      have hlen : (l.take n).length = n := by rw [List.length_take]; omega
      have h3 := fromSource_full h1
      rw [hlen] at h3
      rw [parts, h3]
      simp only
      rw [if_neg (by simp [isEmpty]; omega)]
      obtain ⟨xs, ls, h4, h5, h6, h7, h8⟩ := parts_spec hn he fuel (l.drop n) s2
        (by rw [List.length_drop]; omega) h2
      rw [h4]
      refine ⟨_, l.take n :: ls, rfl, ?_, by rw [List.flatten_cons, h6, List.take_append_drop], ?_, ?_⟩
      · rw [List.map_cons, List.map_cons, h5]
        congr 1
        have := (holds_full (l.take n)).1
        rw [hlen] at this
        exact this
      · intro m hm
        rcases List.mem_cons.mp hm with rfl | hm
        · omega
        · exact h7 m hm
      · intro m hm
        cases ls with
        | nil => simp at hm
        | cons k ls =>
          rw [List.dropLast_cons_cons] at hm
          rcases List.mem_cons.mp hm with rfl | hm
          · exact hlen
          · exact h8 m hm

end SizedSlice
end Oct
