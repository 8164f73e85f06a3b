import Verif.Spec.Macro
/-
The code emitted by the derive macros does what the recursions of the model do.
-/
namespace Oct.Macro
open Oct.Spec

/-! ### Association lists -/

section Assoc
variable {α β γ : Type} [BEq α] [LawfulBEq α]

theorem lookup_of_mem {v : List (α × β)} (h : (v.map Prod.fst).Nodup) {k : α} {x : β}
    (hm : (k, x) ∈ v) : v.lookup k = some x := by
  induction v with
  | nil => cases hm
  | cons p v ih =>
    obtain ⟨a, b⟩ := p
    simp only [List.map_cons, List.nodup_cons] at h
    rw [List.lookup_cons]
    rcases List.mem_cons.1 hm with e | hm
    · cases e
      simp
    · have hne : k ≠ a := fun e => h.1 (List.mem_map.2 ⟨(k, x), hm, e⟩)
      rw [beq_eq_false_iff_ne.2 hne]
      exact ih h.2 hm

omit [LawfulBEq α] in
theorem mapM_zip (v : List (α × β)) (w : List (α × β)) (cs : List γ) (hl : w.length = cs.length)
    (h : ∀ p ∈ w, v.lookup p.1 = some p.2) :
    ((w.map Prod.fst).zip cs).mapM (fun b => (v.lookup b.1).map fun x => (b.2, x)) =
      some (cs.zip (w.map Prod.snd)) := by
  induction w generalizing cs with
  | nil => simp
  | cons p w ih =>
    cases cs with
    | nil => simp at hl
    | cons c cs =>
      have h1 := ih cs (by simpa using hl) fun q hq => h q (List.mem_cons_of_mem _ hq)
      have h2 := h p (List.mem_cons_self ..)
      simp [List.mapM_cons, h1, h2]

end Assoc

theorem isPerm_self {α : Type} [BEq α] [LawfulBEq α] (l : List α) : l.isPerm l = true :=
  List.isPerm_iff.2 (List.Perm.refl l)

/-! ### Names -/

theorem toString_inj {a b : Nat} (h : toString a = toString b) : a = b := by
  have h : Nat.toDigits 10 a = Nat.toDigits 10 b := by
    rw [← Nat.toList_repr, ← Nat.toList_repr]
    exact congrArg String.toList h
  rw [← Nat.ofDigitChars_toDigits (b := 10) (n := a) (by decide) (by decide), h,
    Nat.ofDigitChars_toDigits (by decide) (by decide)]

theorem value_inj {a b : Nat} (h : "value" ++ toString a = "value" ++ toString b) : a = b := by
  apply toString_inj
  have h := congrArg String.toList h
  rw [String.toList_append, String.toList_append] at h
  exact String.ext (List.append_cancel_left h)

theorem captures_nodup (n : Nat) : (captures n).Nodup := by
  unfold captures
  rw [List.Nodup, List.pairwise_map]
  exact List.nodup_range.imp fun h e => h (value_inj e)

@[simp] theorem captures_length (n : Nat) : (captures n).length = n := by simp [captures]

/-! ### Structures -/

theorem view_keys (decl : List (Sel × Ty)) (v : (fieldsOf decl).Val) :
    (view decl v).map Prod.fst = decl.map Prod.fst := by
  induction decl with
  | nil => rfl
  | cons d ds ih => simp [view, ih]

theorem decl_nodup {fs : SynFields} (h : FieldsOk fs) : (fs.decl.map Prod.fst).Nodup := by
  cases fs with
  | unit => exact List.nodup_nil
  | unnamed tys =>
    have : (SynFields.decl (.unnamed tys)).map Prod.fst = (List.range tys.length).map Sel.index := by
      simp only [SynFields.decl, List.map_map]
      rw [← List.zipIdx_map_snd 0 tys |>.trans List.range_eq_range'.symm, List.map_map]
      rfl
    rw [this, List.Nodup, List.pairwise_map]
    exact List.nodup_range.imp fun h e => h (by injection e)
  | named fs =>
    have : (SynFields.decl (.named fs)).map Prod.fst = (fs.map Prod.fst).map Sel.name := by
      simp [SynFields.decl]
    rw [this, List.Nodup, List.pairwise_map]
    exact List.Pairwise.imp (fun h e => h (by injection e)) h

theorem patternOf_eq (fs : SynFields) (cs : List String) (h : cs.length = fs.decl.length) :
    patternOf fs cs = (fs.decl.map Prod.fst).zip cs := by
  cases fs with
  | unit => rfl
  | named fs => simp [patternOf, SynFields.decl, Function.comp_def]
  | unnamed tys =>
    simp only [patternOf, SynFields.decl, List.map_map, List.length_map, List.length_zipIdx] at h ⊢
    apply List.ext_getElem
    · simp [h]
    · intro i h1 h2
      simp

theorem initsOf_eq (fs : SynFields) : initsOf fs = fs.decl.map Prod.fst := by
  cases fs with
  | unit => rfl
  | named fs => simp [initsOf, SynFields.decl, Function.comp_def]
  | unnamed tys =>
    apply List.ext_getElem <;> simp [initsOf, SynFields.decl]

/-- Encoding values one after the other. -/
def encAll (g : EncErr → EncErr) : List AnyVal → Enc Unit
  | [] => Enc.pure ()
  | x :: xs => (x.1.encode x.2).mapErr g >>= fun _ => encAll g xs

theorem runStmts_eq (g : EncErr → EncErr) (env : List (String × AnyVal)) (cs : List String)
    (xs : List AnyVal) (hl : cs.length = xs.length)
    (h : ∀ p ∈ cs.zip xs, env.lookup p.1 = some p.2) :
    runStmts g env cs = some (encAll g xs) := by
  induction cs generalizing xs with
  | nil => cases xs with
    | nil => rfl
    | cons => simp at hl
  | cons c cs ih =>
    cases xs with
    | nil => simp at hl
    | cons x xs =>
      have h1 := ih xs (by simpa using hl) fun p hp => h p (by simp [hp])
      have h2 := h (c, x) (by simp)
      simp only [runStmts, h1]
      simp only at h2
      simp [h2, encAll]

theorem encAll_view (g : EncErr → EncErr) (decl : List (Sel × Ty)) (v : (fieldsOf decl).Val) :
    encAll g ((view decl v).map Prod.snd) = (fieldsOf decl).encode g v := by
  induction decl with
  | nil => rfl
  | cons d ds ih =>
    simp only [view, List.map_cons, encAll, ih]
    rfl

theorem bind_view {fs : SynFields} (h : FieldsOk fs) (v : (fieldsOf fs.decl).Val) :
    (patternOf fs (captures fs.decl.length)).bind (view fs.decl v) =
      some ((captures fs.decl.length).zip ((view fs.decl v).map Prod.snd)) := by
  have hk := view_keys fs.decl v
  have hl : (view fs.decl v).length = fs.decl.length := by
    have := congrArg List.length hk
    simpa using this
  rw [patternOf_eq _ _ (by simp), Pattern.bind]
  rw [List.map_fst_zip (by simp), List.map_snd_zip (by simp), ← hk, isPerm_self,
    if_pos ⟨rfl, captures_nodup _⟩]
  apply mapM_zip _ (view fs.decl v) _ (by simp [hl])
  intro p hp
  exact lookup_of_mem (by rw [hk]; exact decl_nodup h) hp

/-- The statements of a structure or of an arm. -/
theorem stmts_view {fs : SynFields} (g : EncErr → EncErr) (v : (fieldsOf fs.decl).Val) :
    runStmts g ((captures fs.decl.length).zip ((view fs.decl v).map Prod.snd))
      (captures fs.decl.length) = some ((fieldsOf fs.decl).encode g v) := by
  have hl : (view fs.decl v).length = fs.decl.length := by
    have := congrArg List.length (view_keys fs.decl v)
    simpa using this
  rw [runStmts_eq g _ _ ((view fs.decl v).map Prod.snd) (by simp [hl]), encAll_view]
  intro p hp
  exact lookup_of_mem (by
    rw [List.map_fst_zip (by simp [hl])]; exact captures_nodup _) hp

theorem encodeStruct_run {fs : SynFields} (h : FieldsOk fs) (v : (fieldsOf fs.decl).Val) :
    (encodeStruct fs).runStruct (view fs.decl v) =
      some ((Ty.struct (fieldsOf fs.decl)).encode v) := by
  simp only [encodeStruct, EncodeImpl.runStruct, bind_view h, Option.bind_eq_bind,
    Option.bind_some, stmts_view]
  simp only [Ty.encode]

/-! ### Decoding structures -/

theorem Dec.bind_map {α β γ : Type} (m : Dec α) (f : α → β) (k : β → Dec γ) :
    (mapped f m >>= k) = (m >>= fun a => k (f a)) := by
  funext i
  change Dec.bind _ _ i = Dec.bind _ _ i
  unfold Dec.bind mapped
  rcases m i with ⟨r, i'⟩
  cases r <;> rfl

theorem Dec.map_bind {α β γ : Type} (m : Dec α) (k : α → Dec β) (f : β → γ) :
    mapped f (m >>= k) = (m >>= fun a => mapped f (k a)) := by
  funext i
  change _ = Dec.bind _ _ i
  change ((Dec.bind m k i).1.map f, (Dec.bind m k i).2) = _
  unfold Dec.bind
  rcases h : m i with ⟨r, i'⟩
  cases r <;> rfl

theorem Dec.map_pure {α β : Type} (a : α) (f : α → β) : mapped f (Dec.pure a) = Dec.pure (f a) := rfl

theorem Dec.map_map {α β γ : Type} (m : Dec α) (f : α → β) (g : β → γ) :
    mapped g (mapped f m) = mapped (g ∘ f) m := by
  funext i
  unfold mapped
  rcases m i with ⟨r, i'⟩
  cases r <;> rfl

theorem decode_view_cons (g : DecErr → DecErr) (d : Sel × Ty) (ds : List (Sel × Ty)) :
    mapped (view (d :: ds)) ((fieldsOf (d :: ds)).decode g) =
      (d.2.decode.mapErr g >>= fun v =>
        mapped (view ds) ((fieldsOf ds).decode g) >>= fun vs =>
          Dec.pure ((d.1, ⟨d.2, v⟩) :: vs)) := by
  have h : (fieldsOf (d :: ds)).decode g =
      (d.2.decode.mapErr g >>= fun v => (fieldsOf ds).decode g >>= fun vs =>
        Dec.pure (α := (fieldsOf (d :: ds)).Val) (v, vs)) := by
    change Fields.decode (.cons d.2 (fieldsOf ds)) g = _
    rw [Fields.decode]
    rfl
  rw [h, Dec.map_bind]
  congr 1
  funext v
  rw [Dec.map_bind, Dec.bind_map]
  rfl

theorem runInits_eq (g : DecErr → DecErr) (decl : List (Sel × Ty)) (ds : List (Sel × Ty))
    (h : ∀ d ∈ ds, decl.lookup d.1 = some d.2) :
    runInits g decl (ds.map Prod.fst) = some (mapped (view ds) ((fieldsOf ds).decode g)) := by
  induction ds with
  | nil => rfl
  | cons d ds ih =>
    have h1 := ih fun q hq => h q (List.mem_cons_of_mem _ hq)
    have h2 := h d (List.mem_cons_self ..)
    simp only [List.map_cons, runInits, h1, h2, Option.bind_eq_bind, Option.bind_some]
    rw [decode_view_cons]
    rfl

theorem arrange_view {decl : List (Sel × Ty)} (h : (decl.map Prod.fst).Nodup)
    (v : (fieldsOf decl).Val) : arrange decl (view decl v) = view decl v := by
  suffices ∀ (w : StructVal) (ds : List (Sel × Ty)) (u : (fieldsOf ds).Val),
      (∀ p ∈ view ds u, w.lookup p.1 = some p.2) →
      ds.filterMap (fun d => (w.lookup d.1).map fun x => (d.1, x)) = view ds u by
    apply this
    intro p hp
    exact lookup_of_mem (by rw [view_keys]; exact h) hp
  intro w ds
  induction ds with
  | nil => intro u _; rfl
  | cons d ds ih =>
    intro u hu
    have h1 := ih u.2 fun p hp => hu p (by simp [view, hp])
    have h2 := hu (d.1, ⟨d.2, u.1⟩) (by simp [view])
    simp only at h2
    simp only [List.filterMap_cons, h2, Option.map_some, h1]
    rfl

theorem runExpr_eq {fs : SynFields} (h : FieldsOk fs) (g : DecErr → DecErr) :
    runExpr g fs.decl (initsOf fs) =
      some (mapped (view fs.decl) ((fieldsOf fs.decl).decode g)) := by
  rw [runExpr, initsOf_eq, if_pos (isPerm_self _),
    runInits_eq g fs.decl fs.decl fun d hd => lookup_of_mem (decl_nodup h) hd]
  simp only [Option.map_some, Dec.bind_map, arrange_view (decl_nodup h)]
  rw [← Dec.bind_map ((fieldsOf fs.decl).decode g) (view fs.decl) fun x => Dec.pure x]
  congr 1
  funext i
  change Dec.bind _ _ i = _
  unfold Dec.bind
  rcases mapped (view fs.decl) ((fieldsOf fs.decl).decode g) i with ⟨r, i'⟩
  cases r <;> rfl

theorem decodeStruct_run {fs : SynFields} (h : FieldsOk fs) :
    (decodeStruct fs).runStruct fs.decl =
      some (mapped (view fs.decl) (Ty.struct (fieldsOf fs.decl)).decode) := by
  simp only [decodeStruct, DecodeImpl.runStruct, runExpr_eq h, Ty.decode]

/-! ### Discriminants -/

theorem readLit_toDigits (n : Nat) : readLit (Nat.toDigits 10 n) = n :=
  Nat.ofDigitChars_toDigits (by decide) (by decide)

theorem ofDigitChars_ge (l : List Char) (n : Nat) : n ≤ Nat.ofDigitChars 10 l n := by
  induction l generalizing n with
  | nil => simp
  | cons c cs ih =>
    rw [Nat.ofDigitChars_cons]
    exact Nat.le_trans (by omega) (ih _)

theorem parseFrom_eq (limit : Nat) (l : List Char) (n : Nat) (hn : n < limit)
    (h : ∀ c ∈ l, c.isDigit) :
    parseFrom limit n l =
      if Nat.ofDigitChars 10 l n < limit then some (Nat.ofDigitChars 10 l n) else none := by
  induction l generalizing n with
  | nil => simp [parseFrom, hn]
  | cons c cs ih =>
    have hc := h c (List.mem_cons_self ..)
    rw [parseFrom, if_pos hc, Nat.ofDigitChars_cons]
    change (if 10 * n + (c.toNat - 48) < limit then _ else _) = 
      if Nat.ofDigitChars 10 cs (10 * n + (c.toNat - 48)) < limit then _ else _
    split
    · next hlt => exact ih _ hlt fun d hd => h d (List.mem_cons_of_mem _ hd)
    · next hge =>
      have := ofDigitChars_ge cs (10 * n + (c.toNat - 48))
      rw [if_neg (by omega)]

theorem parse_toDigits (limit : Nat) (hl : 0 < limit) (n : Nat) :
    parse limit (Nat.toDigits 10 n) = if n < limit then some n else none := by
  rw [parse, if_neg Nat.toDigits_ne_nil, parseFrom_eq limit _ 0 hl
    fun c hc => Nat.isDigit_of_mem_toDigits (by decide) (by decide) hc,
    Nat.ofDigitChars_toDigits (by decide) (by decide)]

/-- The explicit discriminants that the macros take are the integer literals below `2^128`. -/
theorem explicitDisc_eq_some {e : Expr} {n : Nat} :
    explicitDisc e = some n ↔ IsLit e ∧ exprValue e = n ∧ n < 2 ^ 128 := by
  cases e with
  | int base digits =>
    simp only [explicitDisc, base10Digits, parse_toDigits _ (Nat.two_pow_pos _), IsLit, exprValue,
      true_and, litValue]
    generalize digits.foldl (fun n d => n * base + d) 0 = k
    by_cases h : k < 2 ^ 128
    · rw [if_pos h]
      simp only [Option.orElse_some, Option.some.injEq]
      constructor
      · rintro rfl
        exact ⟨rfl, h⟩
      · intro h
        omega
    · have h' : ¬ k < 2 ^ 127 := fun h' => h (Nat.lt_trans h' (by decide))
      rw [if_neg h, if_neg h']
      simp only [Option.orElse_none, reduceCtorEq, false_iff]
      rintro ⟨h1, h2⟩
      have : k = n := by exact_mod_cast h1
      exact h (this ▸ h2)
  | _ => simp [explicitDisc, IsLit]

/-- The value that follows, as the macro computes it. -/
theorem discriminants_cons {e : Option Expr} {es : List (Option Expr)} {prev : Option Nat}
    {ls : List (List Char)} (h : discriminants (e :: es) prev = some ls) :
    ∃ rest, discriminants es (some (nextDisc prev (e.map fun e => (exprValue e).toNat))) =
        some rest ∧
      ls = Nat.toDigits 10 (nextDisc prev (e.map fun e => (exprValue e).toNat)) :: rest ∧
      (∀ x, e = some x → IsLit x ∧ 0 ≤ exprValue x) ∧
      nextDisc prev (e.map fun e => (exprValue e).toNat) < 2 ^ 128 := by
  cases e with
  | some e =>
    simp only [discriminants, Option.bind_eq_bind, Option.bind_eq_some_iff] at h
    obtain ⟨d, hd, rest, hr, hl⟩ := h
    obtain ⟨h1, h2, h3⟩ := explicitDisc_eq_some.1 hd
    have he : (exprValue e).toNat = d := by omega
    simp only [Option.map_some, nextDisc, he]
    refine ⟨rest, hr, by injection hl with hl; exact hl.symm, ?_, h3⟩
    rintro x hx
    cases hx
    exact ⟨h1, by omega⟩
  | none =>
    cases prev with
    | none =>
      simp only [discriminants, Option.bind_eq_bind, Option.bind_eq_some_iff] at h
      obtain ⟨d, hd, rest, hr, hl⟩ := h
      cases hd
      exact ⟨rest, hr, by injection hl with hl; exact hl.symm, by simp, by decide⟩
    | some p =>
      by_cases hp : p + 1 < 2 ^ 128
      · simp only [discriminants, if_pos hp, Option.bind_eq_bind, Option.bind_eq_some_iff] at h
        obtain ⟨d, hd, rest, hr, hl⟩ := h
        cases hd
        exact ⟨rest, hr, by injection hl with hl; exact hl.symm, by simp, hp⟩
      · simp [discriminants, if_neg hp] at h

/-- The emitted discriminants are those of Rust. -/
theorem discriminants_eq (es : List (Option Expr)) (prev : Option Nat) (ls : List (List Char))
    (h : discriminants es prev = some ls) :
    ls.map (fun l => (readLit l : Int)) = rustDiscs (prev.map Int.ofNat) es := by
  induction es generalizing prev ls with
  | nil =>
    cases h
    simp [rustDiscs]
  | cons e es ih =>
    obtain ⟨rest, hr, rfl, he, _⟩ := discriminants_cons h
    have := ih _ _ hr
    rw [List.map_cons, readLit_toDigits, this]
    cases e with
    | some e =>
      have h0 := (he e rfl).2
      have hv : (((exprValue e).toNat : Nat) : Int) = exprValue e := by omega
      simp only [Option.map_some, nextDisc, rustDiscs, Int.ofNat_eq_natCast, hv]
    | none =>
      cases prev with
      | none => simp [nextDisc, rustDiscs]
      | some p => simp [nextDisc, rustDiscs]

/-- The discriminants are accepted if the explicit ones are literals and all are below `2^128`. -/
theorem discriminants_some (es : List (Option Expr)) (prev : Option Nat)
    (hl : ∀ e, some e ∈ es → IsLit e)
    (hr : ∀ d ∈ rustDiscs (prev.map Int.ofNat) es, d < 2 ^ 128) :
    ∃ ls, discriminants es prev = some ls := by
  induction es generalizing prev with
  | nil => exact ⟨[], rfl⟩
  | cons e es ih =>
    have hl' : ∀ x, some x ∈ es → IsLit x := fun x hx => hl x (List.mem_cons_of_mem _ hx)
    cases e with
    | some e =>
      have he := hl e (List.mem_cons_self ..)
      simp only [rustDiscs, List.mem_cons, forall_eq_or_imp] at hr
      have h0 : 0 ≤ exprValue e := by
        cases e with
        | int => exact Int.natCast_nonneg _
        | _ => exact he.elim
      obtain ⟨n, hn⟩ := Int.eq_ofNat_of_zero_le h0
      have h1 := explicitDisc_eq_some.2 ⟨he, hn, by have := hr.1; omega⟩
      obtain ⟨ls, h2⟩ := ih (some n) hl' (by simpa [hn] using hr.2)
      exact ⟨Nat.toDigits 10 n :: ls, by simp [discriminants, h1, h2]⟩
    | none =>
      cases prev with
      | none =>
        simp only [Option.map_none, rustDiscs, List.mem_cons, forall_eq_or_imp] at hr
        obtain ⟨ls, h2⟩ := ih (some 0) hl' (by simpa using hr.2)
        exact ⟨Nat.toDigits 10 0 :: ls, by simp [discriminants, h2]⟩
      | some p =>
        simp only [Option.map_some, rustDiscs, List.mem_cons, forall_eq_or_imp] at hr
        obtain ⟨ls, h2⟩ := ih (some (p + 1)) hl' (by simpa using hr.2)
        have hp : p + 1 < 2 ^ 128 := by have := hr.1; simp only [Int.ofNat_eq_natCast] at this; omega
        exact ⟨Nat.toDigits 10 (p + 1) :: ls, by
          simp only [discriminants, if_pos hp, Option.bind_eq_bind, Option.bind_some, h2]; rfl⟩

/-- Conversely, what is accepted consists of literals, and all discriminants are below `2^128`. -/
theorem discriminants_lit (es : List (Option Expr)) (prev : Option Nat) (ls : List (List Char))
    (h : discriminants es prev = some ls) :
    (∀ e, some e ∈ es → IsLit e) ∧
      ∀ d ∈ rustDiscs (prev.map Int.ofNat) es, d < 2 ^ 128 := by
  rw [← discriminants_eq es prev ls h]
  induction es generalizing prev ls with
  | nil =>
    cases h
    simp
  | cons e es ih =>
    obtain ⟨rest, hr, rfl, he, hd⟩ := discriminants_cons h
    obtain ⟨h1, h2⟩ := ih _ _ hr
    constructor
    · intro x hx
      rcases List.mem_cons.1 hx with hx | hx
      · exact (he x hx.symm).1
      · exact h1 x hx
    · simp only [List.map_cons, List.mem_cons, forall_eq_or_imp, readLit_toDigits]
      exact ⟨by omega, h2⟩

/-- The discriminants of the model are those that are emitted. -/
theorem discs_variantsOf (vs : List SynVariant) (prev : Option Nat) (ls : List (List Char))
    (h : discriminants (vs.map (·.disc)) prev = some ls) :
    (variantsOf vs).discs prev = ls.map readLit := by
  induction vs generalizing prev ls with
  | nil =>
    cases h
    rfl
  | cons s vs ih =>
    obtain ⟨rest, hr, rfl, _, _⟩ := discriminants_cons h
    have := ih _ _ hr
    simp only [List.map_cons, readLit_toDigits, variantsOf, Variants.discs]
    rw [← this]

/-- What rustc accepts and the macros take is well-formed in the model. -/
theorem enum_wf (r : Repr) (vs : List SynVariant) (hl : LegalDiscs r (vs.map (·.disc)))
    (hf : ∀ s ∈ vs, (fieldsOf s.fields.decl).WF) (ls : List (List Char))
    (h : discriminants (vs.map (·.disc)) none = some ls) : (Ty.enum r (variantsOf vs)).WF := by
  have h1 := discs_variantsOf vs none ls h
  have h2 := discriminants_eq _ none ls h
  have h3 := (discriminants_lit _ none ls h).2
  obtain ⟨h4, h5⟩ := hl
  have h6 : rustDiscs none (vs.map (·.disc)) =
      ((variantsOf vs).discs none).map fun (n : Nat) => (n : Int) := by
    rw [h1, List.map_map]
    exact h2.symm
  rw [Option.map_none] at h3
  rw [h6] at h3 h4 h5
  refine ⟨List.Pairwise.imp (fun h e => h (congrArg _ e)) (List.pairwise_map.1 h5), ?_, ?_⟩
  · intro d hd
    have hd' : (d : Int) ∈ ((variantsOf vs).discs none).map fun (n : Nat) => (n : Int) :=
      List.mem_map.2 ⟨d, hd, rfl⟩
    exact ⟨h4 _ hd', by have := h3 _ hd'; omega⟩
  · clear h h1 h2 h3 h4 h5 h6
    induction vs with
    | nil => trivial
    | cons s vs ih =>
      exact ⟨hf s (List.mem_cons_self ..), ih fun x hx => hf x (List.mem_cons_of_mem _ hx)⟩

/-! ### Enumerations -/

theorem resolve_toStr (r : Repr) : resolve (Repr.toStr r) = some r := by
  cases r with
  | int k => cases k <;> rfl
  | _ => rfl

/-- The arms of the emitted `match *self`. -/
def encArms (vs : List SynVariant) (ls : List (List Char)) : List EncodeArm :=
  (vs.zip ls).map fun p =>
    { variant := p.1.name
      pattern := patternOf p.1.fields (captures p.1.fields.decl.length)
      lit := p.2
      stmts := captures p.1.fields.decl.length }

theorem viewEnum_mem (vs : List SynVariant) (v : (variantsOf vs).Val) :
    (viewEnum vs v).1 ∈ vs.map (·.name) := by
  induction vs with
  | nil => exact nomatch v
  | cons s vs ih =>
    cases v with
    | inl v => exact List.mem_cons_self ..
    | inr v => exact List.mem_cons_of_mem _ (ih v)

theorem encArms_run (r : Repr) (vs : List SynVariant) (hv : VariantsOk vs) (prev : Option Nat)
    (ls : List (List Char)) (h : discriminants (vs.map (·.disc)) prev = some ls)
    (v : (variantsOf vs).Val) :
    (EncodeImpl.enum (Repr.toStr r) (encArms vs ls)).runEnum (viewEnum vs v) =
      some ((variantsOf vs).encode r prev v) := by
  induction vs generalizing prev ls with
  | nil => exact nomatch v
  | cons s vs ih =>
    obtain ⟨rest, hr, rfl, _, _⟩ := discriminants_cons h
    obtain ⟨hn, hf⟩ := hv
    simp only [List.map_cons, List.nodup_cons] at hn
    have ih' := fun v => ih ⟨hn.2, fun x hx => hf x (List.mem_cons_of_mem _ hx)⟩ _ _ hr v
    cases v with
    | inl v =>
      have hs := hf s (List.mem_cons_self ..)
      simp only [encArms, List.zip_cons_cons, List.map_cons, EncodeImpl.runEnum, viewEnum,
        resolve_toStr, Option.bind_eq_bind, Option.bind_some, List.find?_cons_of_pos,
        decide_true, bind_view hs, stmts_view, readLit_toDigits]
      simp only [variantsOf, Variants.encode]
      rfl
    | inr v =>
      have hne : s.name ≠ (viewEnum vs v).1 := fun e => hn.1 (e ▸ viewEnum_mem vs v)
      have := ih' v
      simp only [encArms, EncodeImpl.runEnum, resolve_toStr, Option.bind_eq_bind,
        Option.bind_some] at this
      simp only [encArms, List.zip_cons_cons, List.map_cons, EncodeImpl.runEnum, viewEnum,
        resolve_toStr, Option.bind_eq_bind, Option.bind_some]
      rw [List.find?_cons_of_neg (by simp [hne])]
      exact this

theorem decode_viewEnum_cons (s : SynVariant) (vs : List SynVariant) (prev : Option Nat) (x : Int) :
    mapped (viewEnum (s :: vs)) ((variantsOf (s :: vs)).decode prev x) =
      if x = (nextDisc prev (s.disc.map fun e => (exprValue e).toNat) : Int) then
        mapped (view s.fields.decl)
          ((fieldsOf s.fields.decl).decode fun e => .badField e.toGeneric) >>= fun vs =>
            Dec.pure (s.name, vs)
      else
        mapped (viewEnum vs) ((variantsOf vs).decode
          (some (nextDisc prev (s.disc.map fun e => (exprValue e).toNat))) x) := by
  have h : (variantsOf (s :: vs)).decode prev x =
      if x = (nextDisc prev (s.disc.map fun e => (exprValue e).toNat) : Int) then
        ((fieldsOf s.fields.decl).decode fun e => .badField e.toGeneric) >>= fun v =>
          Dec.pure (α := (variantsOf (s :: vs)).Val) (.inl v)
      else
        (variantsOf vs).decode (some (nextDisc prev (s.disc.map fun e => (exprValue e).toNat))) x
          >>= fun v => Dec.pure (α := (variantsOf (s :: vs)).Val) (.inr v) := by
    change Variants.decode (.cons _ (fieldsOf s.fields.decl) (variantsOf vs)) prev x = _
    rw [Variants.decode]
    rfl
  rw [h]
  split
  · rw [Dec.map_bind, Dec.bind_map]
    rfl
  · rw [Dec.map_bind]
    funext i
    change Dec.bind _ _ i = ((Variants.decode _ _ x i).1.map _, _)
    unfold Dec.bind
    rcases Variants.decode _ _ x i with ⟨r, i'⟩
    cases r <;> rfl

theorem runArms_eq (decls : List (String × List (Sel × Ty))) (vs : List SynVariant)
    (hd : ∀ s ∈ vs, decls.lookup s.name = some s.fields.decl) (hf : ∀ s ∈ vs, FieldsOk s.fields)
    (prev : Option Nat) (ls : List (List Char))
    (h : discriminants (vs.map (·.disc)) prev = some ls) :
    runArms decls ((ls.zip vs).map fun p =>
        { lit := p.1, variant := p.2.name, inits := initsOf p.2.fields }) =
      some fun x => mapped (viewEnum vs) ((variantsOf vs).decode prev x) := by
  induction vs generalizing prev ls with
  | nil =>
    cases h
    rfl
  | cons s vs ih =>
    obtain ⟨rest, hr, rfl, _, _⟩ := discriminants_cons h
    have ih' := ih (fun x hx => hd x (List.mem_cons_of_mem _ hx))
      (fun x hx => hf x (List.mem_cons_of_mem _ hx)) _ _ hr
    have h1 := hd s (List.mem_cons_self ..)
    have h2 := hf s (List.mem_cons_self ..)
    simp only [List.zip_cons_cons, List.map_cons, runArms, h1, ih', runExpr_eq h2,
      Option.bind_eq_bind, Option.bind_some, readLit_toDigits]
    congr 1
    funext x
    exact (decode_viewEnum_cons s vs prev x).symm

theorem encodeEnum_run (r : Repr) (vs : List SynVariant) (hv : VariantsOk vs) (c : EncodeImpl)
    (h : encodeEnum vs r = some c) (v : (variantsOf vs).Val) :
    c.runEnum (viewEnum vs v) = some ((Ty.enum r (variantsOf vs)).encode v) := by
  simp only [encodeEnum, Option.bind_eq_bind, Option.bind_eq_some_iff] at h
  obtain ⟨ls, hl, hc⟩ := h
  cases hc
  rw [← encArms, encArms_run r vs hv none ls hl v]
  simp only [Ty.encode]

theorem decodeEnum_run (r : Repr) (vs : List SynVariant) (hv : VariantsOk vs) (c : DecodeImpl)
    (h : decodeEnum vs r = some c) :
    c.runEnum (declsOf vs) =
      some (mapped (viewEnum vs) (Ty.enum r (variantsOf vs)).decode) := by
  simp only [decodeEnum, Option.bind_eq_bind, Option.bind_eq_some_iff] at h
  obtain ⟨ls, hl, hc⟩ := h
  cases hc
  have hk : ((declsOf vs).map Prod.fst) = vs.map (·.name) := by simp [declsOf, Function.comp_def]
  simp only [DecodeImpl.runEnum, resolve_toStr, Option.bind_eq_bind, Option.bind_some]
  rw [runArms_eq (declsOf vs) vs
    (fun s hs => lookup_of_mem (by rw [hk]; exact hv.1) (List.mem_map.2 ⟨s, hs, rfl⟩))
    hv.2 none ls hl]
  simp only [Option.bind_some, Ty.decode, Dec.map_bind]
  rfl

theorem encodeEnum_isSome (vs : List SynVariant) (r : Repr) :
    (encodeEnum vs r).isSome = (discriminants (vs.map (·.disc)) none).isSome := by
  rw [encodeEnum]
  cases discriminants (vs.map (·.disc)) none <;> rfl

theorem decodeEnum_isSome (vs : List SynVariant) (r : Repr) :
    (decodeEnum vs r).isSome = (discriminants (vs.map (·.disc)) none).isSome := by
  rw [decodeEnum]
  cases discriminants (vs.map (·.disc)) none <;> rfl

/-! ### Sizes -/

theorem sumSizes_fields (sizeOf : Ty → Nat) (decl : List (Sel × Ty)) (n : Nat)
    (ts : List TyName) :
    sumSizes sizeOf n ((decl.map fun p => TyName.field p.2) ++ ts) =
      sumSizes sizeOf (n + (fieldsOf decl).maxSize sizeOf) ts := by
  induction decl generalizing n with
  | nil => simp [fieldsOf, Fields.maxSize]
  | cons d ds ih =>
    simp only [List.map_cons, List.cons_append, sumSizes, TyName.maxSize, Option.bind_eq_bind,
      Option.bind_some, ih, fieldsOf, Fields.maxSize, Nat.add_assoc]

theorem maxSizes_eq (sizeOf : Ty → Nat) (r : Repr) (vs : List SynVariant) (n : Nat) :
    maxSizes sizeOf n (vs.map fun v =>
        (v.fields.decl.map fun p => TyName.field p.2) ++ [.repr (Repr.toStr r)]) =
      some (max n ((variantsOf vs).maxSize sizeOf r)) := by
  induction vs generalizing n with
  | nil => simp [maxSizes, variantsOf, Variants.maxSize]
  | cons s vs ih =>
    simp only [List.map_cons, maxSizes, sumSizes_fields]
    simp only [sumSizes, TyName.maxSize, resolve_toStr, Option.map_some, Option.bind_eq_bind,
      Option.bind_some, ih, variantsOf, Variants.maxSize]
    congr 1
    split <;> omega

/-! ### Representations -/

theorem ofIdent_eq (s : String) : Repr.ofIdent s = intTypes.lookup s := by
  have key : ∀ (a : String) (r : Repr) (l : List (String × Repr)),
      ((a, r) :: l).lookup s = if s = a then some r else l.lookup s := by
    intro a r l
    rw [List.lookup_cons]
    by_cases h : s = a
    · simp [h]
    · rw [if_neg h, beq_eq_false_iff_ne.2 h]
  unfold Repr.ofIdent intTypes
  simp only [key, List.lookup_nil]
  by_cases h1 : s = "u8"
  · simp [h1]
  by_cases h2 : s = "u16"
  · simp [h2]
  by_cases h3 : s = "u32"
  · simp [h3]
  by_cases h4 : s = "u64"
  · simp [h4]
  by_cases h5 : s = "u128"
  · simp [h5]
  by_cases h6 : s = "usize"
  · simp [h6]
  simp only [h1, h2, h3, h4, h5, h6, if_false]

/-- An item is taken exactly if it names an integer type. -/
def Taken : Meta → Prop
  | .path s => (intTypes.lookup s).isSome
  | .list _ => False

theorem getMetas_eq (ms : List Meta) (this : Option Repr) :
    (∀ r, Repr.getMetas ms this = some r ↔
      (∀ m ∈ ms, Taken m) ∧
      r = ((ms.filterMap fun m =>
        match m with
        | .path s => intTypes.lookup s
        | .list _ => none).getLast?.or this)) := by
  induction ms generalizing this with
  | nil =>
    intro r
    simp [Repr.getMetas, eq_comm]
  | cons m ms ih =>
    intro r
    cases m with
    | list s => simp [Repr.getMetas, Taken]
    | path s =>
      rw [Repr.getMetas, ofIdent_eq]
      cases hs : intTypes.lookup s with
      | none =>
        simp only [reduceCtorEq, false_iff]
        rintro ⟨h, _⟩
        have := h _ (List.mem_cons_self ..)
        simp only [Taken, hs, Option.isSome_none, Bool.false_eq_true] at this
      | some q =>
        simp only [ih, List.mem_cons, forall_eq_or_imp, Taken, hs, Option.isSome_some, true_and,
          List.filterMap_cons, List.getLast?_cons, Option.some_or]
        generalize List.getLast? _ = o
        cases o <;> simp

theorem getFrom_eq (attrs : List Attr) (this : Option Repr) (r : Option Repr) :
    Repr.getFrom attrs this = some r ↔
      (∀ m ∈ reprItems attrs, Taken m) ∧ r = (reprInts attrs).getLast?.or this := by
  induction attrs generalizing this with
  | nil => simp [Repr.getFrom, reprItems, reprInts, eq_comm]
  | cons a as ih =>
    rw [Repr.getFrom]
    by_cases h : a.path = "repr"
    · have h1 : reprItems (a :: as) = a.metas ++ reprItems as := by simp [reprItems, h]
      rw [if_pos h]
      simp only [reprInts, h1, List.filterMap_append, List.getLast?_append, List.mem_append] at ih ⊢
      cases hm : Repr.getMetas a.metas this with
      | some q =>
        obtain ⟨h2, h3⟩ := (getMetas_eq a.metas this q).1 hm
        simp only [ih, h3, Option.or_assoc]
        constructor
        · rintro ⟨h4, h5⟩
          exact ⟨fun m hm => hm.elim (h2 m) (h4 m), h5⟩
        · rintro ⟨h4, h5⟩
          exact ⟨fun m hm => h4 m (.inr hm), h5⟩
      | none =>
        simp only [reduceCtorEq, false_iff]
        rintro ⟨h2, _⟩
        have := (getMetas_eq a.metas this _).2 ⟨fun m hm => h2 m (.inl hm), rfl⟩
        rw [hm] at this
        cases this
    · have h1 : reprItems (a :: as) = reprItems as := by simp [reprItems, h]
      rw [if_neg h, ih]
      simp only [reprInts, h1]

/-- What `Repr::get` takes, and what it makes of it. -/
theorem get_eq (attrs : List Attr) (r : Repr) :
    Repr.get attrs = some r ↔
      (∀ m ∈ reprItems attrs, Taken m) ∧ r = (reprInts attrs).getLast?.getD .isize := by
  simp only [Repr.get, Option.map_eq_some_iff, getFrom_eq, Option.or_none]
  constructor
  · rintro ⟨o, ⟨h1, rfl⟩, rfl⟩
    exact ⟨h1, rfl⟩
  · rintro ⟨h1, rfl⟩
    exact ⟨_, ⟨h1, rfl⟩, rfl⟩

theorem get_legal {attrs : List Attr} (hl : LegalRepr attrs) {r : Repr}
    (h : Repr.get attrs = some r) : r = rustRepr attrs := by
  rw [((get_eq attrs r).1 h).2, rustRepr]
  have := hl.2
  cases hi : reprInts attrs with
  | nil => rfl
  | cons a l =>
    cases l with
    | nil => rfl
    | cons b l => simp [hi] at this

end Oct.Macro
