import Verif.Model.Formatting
import Verif.Proofs.ErrorMessages
import Verif.Proofs.SizedSlice
/-
C119: formatting.
-/
namespace Oct.Props
open Oct
set_option linter.unusedVariables false

/-- C119. A sized slice is shown as the slice that it holds is, with all options and whatever `Debug`
of the slice does; cells beyond its length do not matter, be they initialised or not. -/
theorem C119_slice {α : Type} (slice : Shows (List α)) (o : FmtOptions) (items : List α)
    (rest : List (MaybeUninit α)) :
    SizedSlice.debug slice o ⟨items.map some ++ rest, items.length⟩ = .ok (slice o items) := by
  have h : (⟨items.map some ++ rest, items.length⟩ : SizedSlice α).asSlice (ε := Empty) = .ok items :=
    sliceOf_ok.2 ⟨by simp, by simp⟩
  rw [SizedSlice.debug, h, Res.andShow]

example : SizedSlice.debug (debugSlice debugU8) { alternate := true, hex := .lower }
      ⟨[some 7, some 171, none], 2⟩ = .ok "[\n    0x7,\n    0xab,\n]".toList := by
  decide +kernel

/-- C119. A sized string is shown as the `str` that it holds is, with all options, by `Debug` and by
`Display`. -/
theorem C119_str (str : Shows (List Byte)) (o : FmtOptions) (octets : List Byte)
    (rest : List (MaybeUninit Byte)) :
    SizedStr.shown str o ⟨⟨octets.map some ++ rest, octets.length⟩⟩ = .ok (str o octets) :=
  C119_slice str o octets rest

/-- C119 (part). A slot is shown as its contents are without options. Missing: options, see
`C119_slot_false`. -/
theorem C119_slot_partial (slice : Shows (List Byte)) (o : FmtOptions) (s : Slot)
    (hs : s.len ≤ s.buf.length) : s.debug slice o = .ok (slice .plain (s.buf.take s.len)) := by
  rw [Slot.debug, Slot.asSlice, if_neg (Nat.not_lt.2 hs), Res.andShow]

example : Slot.debug (debugSlice debugU8) { alternate := true } ⟨[7, 171, 0], 2⟩
    = .ok "[7, 171]".toList := by decide +kernel

/-- C119 is false of slots: `{:#?}` of a slot with contents is never that of its contents. -/
theorem C119_slot_false (s : Slot) (hs : s.len ≤ s.buf.length) (hn : 0 < s.len) (o : FmtOptions)
    (ho : o.alternate = true) :
    s.debug (debugSlice debugU8) o ≠ .ok (debugSlice debugU8 o (s.buf.take s.len)) := by
  rw [C119_slot_partial _ _ _ hs]
  intro h
  have h := Res.ok.inj h
  cases hc : s.buf.take s.len with
  | nil =>
    have := congrArg List.length hc
    rw [List.length_take, List.length_nil, Nat.min_eq_left hs] at this
    omega
  | cons a l =>
    rw [hc] at h
    have h' : ['['] ++ (showNat a.toNat ++ []) ++ debugEntries debugU8 .plain l ++ [']']
        = ['[', '\n'] ++ debugEntries debugU8 o (a :: l) ++ [']'] := by
      have e : debugU8 .plain a = showNat a.toNat ++ [] := by
        simp [debugU8, padIntegral, FmtOptions.plain, padded]
      rw [← e]
      simpa [debugSlice, FmtOptions.plain, ho] using h
    have hd := numeral_isDigit (b := 10) (by decide) (by decide) a.toNat
    cases hm : showNat a.toNat with
    | nil => 
      rw [showNat, numeral, numeralAux] at hm
      split at hm <;> simp at hm
    | cons c cs =>
      rw [← showNat, hm] at hd
      rw [hm] at h'
      have hc : c = '\n' := Option.some.inj (congrArg (fun l => l[1]?) h')
      have := hd c (.head _)
      rw [hc] at this
      exact absurd this (by decide)

example : (⟨[7, 171, 0], 2⟩ : Slot).len ≤ 3 ∧ ({ alternate := true } : FmtOptions).alternate = true :=
  ⟨by decide, rfl⟩

/-- C119 is false of slots with other options, too: hexadecimal digits, width. -/
theorem C119_slot_false_options : ∃ s : Slot, s.len ≤ s.buf.length ∧
    s.debug (debugSlice debugU8) { hex := .lower } = .ok ['[', '2', '5', '5', ']'] ∧
    debugSlice debugU8 { hex := .lower } (s.buf.take s.len) = ['[', 'f', 'f', ']'] ∧
    s.debug (debugSlice debugU8) { width := some 4 } = .ok ['[', '2', '5', '5', ']'] ∧
    debugSlice debugU8 { width := some 4 } (s.buf.take s.len) = ['[', ' ', '2', '5', '5', ']'] :=
  ⟨⟨[255, 0], 1⟩, by decide, by decide +kernel, by decide +kernel, by decide +kernel, by decide +kernel⟩

/-- C119 (what an octet looks like in the above). Fill stands on the sides as the alignment says; in the
middle the sides differ by at most one, and the right one is the longer. -/
theorem C119_fill (fill : Char) (align : Align) (room : Nat) (t : List Char) :
    ∃ l r, padded fill align room t = List.replicate l fill ++ t ++ List.replicate r fill ∧
      l + r = room ∧ (align = .left → l = 0) ∧ (align = .right → r = 0) ∧
      (align = .center → l ≤ r ∧ r ≤ l + 1) := by
  cases align with
  | left => exact ⟨0, room, rfl, by omega, fun _ => rfl, fun h => (nomatch h), fun h => (nomatch h)⟩
  | center =>
    exact ⟨room / 2, room - room / 2, rfl, by omega, fun h => (nomatch h), fun h => (nomatch h),
      fun _ => by omega⟩
  | right =>
    exact ⟨room, room - room, rfl, by omega, fun h => (nomatch h), fun _ => by omega,
      fun h => (nomatch h)⟩

example : padded '*' .center 5 ['a'] = ['*', '*', 'a', '*', '*', '*'] := rfl

/-- C119 (what an octet looks like in the above). Without a width, `{:x?}` and `{:X?}` give one digit or
two, after `0x` if the form is the alternate one, and after a plus sign if that is asked for. -/
theorem C119_octet (o : FmtOptions) (hw : o.width = none) (b : Byte) :
    (o.hex = .lower → debugU8 o b = (if o.plus then ['+'] else []) ++
      (if o.alternate then ['0', 'x'] else []) ++
      (if b.toNat < 16 then [] else ["0123456789abcdef".toList.getD (b.toNat / 16) ' ']) ++
      ["0123456789abcdef".toList.getD (b.toNat % 16) ' ']) ∧
    (o.hex = .upper → debugU8 o b = (if o.plus then ['+'] else []) ++
      (if o.alternate then ['0', 'x'] else []) ++
      (if b.toNat < 16 then [] else ["0123456789ABCDEF".toList.getD (b.toNat / 16) ' ']) ++
      ["0123456789ABCDEF".toList.getD (b.toNat % 16) ' ']) ∧
    (o.hex = .off → debugU8 o b = (if o.plus then ['+'] else []) ++
      (if b.toNat < 100 then [] else ["0123456789".toList.getD (b.toNat / 100) ' ']) ++
      (if b.toNat < 10 then [] else ["0123456789".toList.getD (b.toNat / 10 % 10) ' ']) ++
      ["0123456789".toList.getD (b.toNat % 10) ' ']) := by
  have hlow : ∀ n < 256, (numeral 16 n).map Char.toLower
      = (if n < 16 then [] else ["0123456789abcdef".toList.getD (n / 16) ' ']) ++
        ["0123456789abcdef".toList.getD (n % 16) ' '] := by decide +kernel
  have hupp : ∀ n < 256, numeral 16 n
      = (if n < 16 then [] else ["0123456789ABCDEF".toList.getD (n / 16) ' ']) ++
        ["0123456789ABCDEF".toList.getD (n % 16) ' '] := by decide +kernel
  have hdec : ∀ n < 256, showNat n
      = (if n < 100 then [] else ["0123456789".toList.getD (n / 100) ' ']) ++
        (if n < 10 then [] else ["0123456789".toList.getD (n / 10 % 10) ' ']) ++
        ["0123456789".toList.getD (n % 10) ' '] := by decide +kernel
  have hpad : ∀ p d : List Char, padIntegral o p d
      = (if o.plus then ['+'] else []) ++ (if o.alternate then p else []) ++ d := by
    intro p d
    simp only [padIntegral, hw, Option.getD_none, Nat.zero_sub, List.replicate_zero, List.append_nil]
    split
    · rfl
    · obtain ⟨l, r, e, h, -⟩ := C119_fill o.fill (o.align.getD .right) 0
        ((if o.plus then ['+'] else []) ++ (if o.alternate then p else []) ++ d)
      rw [e, show l = 0 by omega, show r = 0 by omega]
      simp
  refine ⟨fun h => ?_, fun h => ?_, fun h => ?_⟩
  · rw [debugU8, h]; simp only; rw [hpad, hlow _ b.toNat_lt]; simp only [List.append_assoc]
  · rw [debugU8, h]; simp only; rw [hpad, hupp _ b.toNat_lt]; simp only [List.append_assoc]
  · rw [debugU8, h]; simp only; rw [hpad, hdec _ b.toNat_lt]; simp only [List.append_assoc, ite_self, List.nil_append]

example : ({ hex := .lower } : FmtOptions).width = none := rfl

/-- C119 (what an octet looks like in the above). A width makes it that long at least: with zeros between
the sign and prefix and the digits if these are asked for, else with fill on the sides, in front if no
alignment is asked for. -/
theorem C119_width (o : FmtOptions) (w : Nat) (hw : o.width = some w) (b : Byte) :
    (o.zeroPad = true → ∃ pre digits, debugU8 { o with width := none } b = pre ++ digits ∧
      pre = (if o.plus then ['+'] else []) ++ (if o.alternate ∧ o.hex ≠ .off then ['0', 'x'] else []) ∧
      debugU8 o b = pre ++ List.replicate (w - (pre ++ digits).length) '0' ++ digits) ∧
    (o.zeroPad = false → ∃ l r, debugU8 o b
        = List.replicate l o.fill ++ debugU8 { o with width := none } b ++ List.replicate r o.fill ∧
      l + r = w - (debugU8 { o with width := none } b).length ∧ (o.align = none → r = 0) ∧
      (o.align = some .left → l = 0) ∧ (o.align = some .right → r = 0) ∧
      (o.align = some .center → l ≤ r ∧ r ≤ l + 1)) := by
  have hpad0 : ∀ p d : List Char, padIntegral { o with width := none } p d
      = (if o.plus then ['+'] else []) ++ (if o.alternate then p else []) ++ d := by
    intro p d
    simp only [padIntegral, Option.getD_none, Nat.zero_sub, List.replicate_zero, List.append_nil]
    split
    · rfl
    · obtain ⟨l, r, e, h, -⟩ := C119_fill o.fill (o.align.getD .right) 0
        ((if o.plus then ['+'] else []) ++ (if o.alternate then p else []) ++ d)
      rw [e, show l = 0 by omega, show r = 0 by omega]
      simp
  obtain ⟨p, d, hp, h0, h1⟩ : ∃ p d : List Char,
      (if o.alternate then p else []) = (if o.alternate ∧ o.hex ≠ .off then ['0', 'x'] else []) ∧
      debugU8 { o with width := none } b = padIntegral { o with width := none } p d ∧
      debugU8 o b = padIntegral o p d := by
    unfold debugU8
    cases hx : o.hex with
    | off => exact ⟨[], showNat b.toNat, by simp, rfl, rfl⟩
    | lower => exact ⟨['0', 'x'], _, by simp, rfl, rfl⟩
    | upper => exact ⟨['0', 'x'], _, by simp, rfl, rfl⟩
  rw [h0, h1, hpad0, hp]
  have hpad : padIntegral o p d = if o.zeroPad then
        (if o.plus then ['+'] else []) ++ (if o.alternate ∧ o.hex ≠ .off then ['0', 'x'] else []) ++
          List.replicate (w - ((if o.plus then ['+'] else []) ++
            (if o.alternate ∧ o.hex ≠ .off then ['0', 'x'] else []) ++ d).length) '0' ++ d
      else padded o.fill (o.align.getD .right) (w - ((if o.plus then ['+'] else []) ++
            (if o.alternate ∧ o.hex ≠ .off then ['0', 'x'] else []) ++ d).length)
          ((if o.plus then ['+'] else []) ++ (if o.alternate ∧ o.hex ≠ .off then ['0', 'x'] else []) ++ d) := by
    unfold padIntegral
    simp only [hw, hp, Option.getD_some, List.length_append]
  rw [hpad]
  generalize (if o.plus then ['+'] else []) ++ (if o.alternate ∧ o.hex ≠ .off then ['0', 'x'] else []) = pre
  refine ⟨fun hz => ⟨pre, d, rfl, rfl, ?_⟩, fun hz => ?_⟩
  · rw [if_pos hz]
  · rw [if_neg (by rw [hz]; decide)]
    obtain ⟨l, r, e, h, hl, hr, hc⟩ := C119_fill o.fill (o.align.getD .right) (w - (pre ++ d).length) (pre ++ d)
    refine ⟨l, r, e, h, fun ha => hr ?_, fun ha => hl ?_, fun ha => hr ?_, fun ha => hc ?_⟩ <;> rw [ha] <;> rfl

example : debugU8 { hex := .lower, alternate := true, zeroPad := true, width := some 6 } 255
    = ['0', 'x', '0', '0', 'f', 'f'] := by decide +kernel
example : debugU8 { width := some 5, fill := '*', align := some .center } 7 = ['*', '*', '7', '*', '*'] := by
  decide +kernel

/-- Lines without a line end in them are indented once. -/
theorem indented_line (t : List Char) (h : '\n' ∉ t) (f : Bool) :
    indented f (t ++ [',', '\n']) = (if f then [' ', ' ', ' ', ' '] else []) ++ t ++ [',', '\n'] := by
  induction t generalizing f with
  | nil => cases f <;> rfl
  | cons c t ih =>
    have hc : (c == '\n') = false := by
      simp only [beq_eq_false_iff_ne]
      exact fun e => h (e ▸ .head _)
    rw [List.cons_append, indented, hc, ih (fun hm => h (.tail _ hm))]
    simp

/-- C119 (what a slice looks like in the above). The entries are between brackets, with commas between
them; in the alternate form each is on a line of its own, indented and with a comma. -/
theorem C119_list {α : Type} (item : Shows α) (o : FmtOptions) (l : List α) :
    debugSlice item o [] = ['[', ']'] ∧
    (o.alternate = false →
      debugSlice item o l = ['['] ++ List.intercalate [',', ' '] (l.map (item o)) ++ [']']) ∧
    (o.alternate = true → l ≠ [] → (∀ a ∈ l, '\n' ∉ item o a) →
      debugSlice item o l
        = "[\n".toList ++ (l.map fun a => "    ".toList ++ item o a ++ ",\n".toList).flatten ++ [']']) := by
  refine ⟨rfl, fun ho => ?_, fun ho hl hn => ?_⟩
  · have key : ∀ (l : List α) (a : α), item o a ++ debugEntries item o l
        = List.intercalate [',', ' '] ((a :: l).map (item o)) := by
      intro l
      induction l with
      | nil => intro a; simp [debugEntries, List.intercalate, List.intersperse]
      | cons b l ih =>
        intro a
        rw [debugEntries, if_neg (by rw [ho]; decide), List.append_assoc, ih b]
        simp [List.intercalate, List.intersperse]
    cases l with
    | nil => rfl
    | cons a l =>
      rw [debugSlice, ← key l a]
      simp only [if_neg (show ¬ o.alternate = true by rw [ho]; decide), List.append_assoc]
  · have key : ∀ l : List α, (∀ a ∈ l, '\n' ∉ item o a) → debugEntries item o l
        = (l.map fun a => "    ".toList ++ item o a ++ ",\n".toList).flatten := by
      intro l
      induction l with
      | nil => intro _; rfl
      | cons a l ih =>
        intro hn
        rw [debugEntries, if_pos ho, indented_line _ (hn a (.head _)), ih fun b hb => hn b (.tail _ hb)]
        rfl
    cases l with
    | nil => exact absurd rfl hl
    | cons a l =>
      rw [debugSlice]
      simp only [if_pos ho]
      rw [key _ hn]
      rfl

example : ∀ a ∈ ([7, 171] : List Byte), '\n' ∉ debugU8 { alternate := true } a := by decide +kernel

end Oct.Props
