import Verif.Proofs.Tidy
import Verif.Props.ArraySize
import Verif.Props.Layout
import Verif.Props.References

/-!
# The normalised text of a definition (C78)

The text from which the signature is computed has one line for each field, and these lines say what the parser would read from
them.
-/

namespace Dronecan
namespace Parser

open Text

/-! ## Specification -/

/-- The cast mode that is written before a type. -/
def PTy.cast : PTy → Option Str
  | .void _ => none
  | .prim p => some (if p.truncated then lit "truncated" else lit "saturated")
  | .array e _ _ => PTy.cast e
  | .compound _ _ _ _ _ => none

/-- The word for a type. -/
def PTy.word : PTy → Str
  | .void n => lit "void" ++ decimal n
  | .prim ⟨.boolean, _, _⟩ => lit "bool"
  | .prim ⟨.unsigned, n, _⟩ => lit "uint" ++ decimal n
  | .prim ⟨.signed, n, _⟩ => lit "int" ++ decimal n
  | .prim ⟨.float, n, _⟩ => lit "float" ++ decimal n
  | .array e dynamic m => PTy.word e ++ '[' :: ((if dynamic then lit "<=" else []) ++ decimal m) ++ [']']
  | .compound name _ _ _ _ => name

/-- The words of the line for a field: padding without its name, other fields with their names. -/
def fieldLine (f : Field) : List Str :=
  match f.type with
  | .void _ => [f.type.word]
  | _ => f.type.cast.toList ++ [f.type.word, f.name.getD (lit "None")]

/-- The lines for a part. -/
def attrsLines (a : Attrs) : List (List Str) := (if a.isUnion then [[lit "@union"]] else []) ++ a.fields.map fieldLine

/-- The lines for a definition, after its name. -/
def defLines (d : Def) : List (List Str) :=
  attrsLines d.body ++
    match d.response with
    | none => []
    | some r => [lit "---"] :: attrsLines r

/-- Lines, each after a newline character. -/
def belowText : List (List Str) → Str
  | [] => []
  | l :: ls => '\n' :: writeLine l ++ belowText ls

/-- The type with another structure for each name. -/
def PTy.withStructures (g : Str → PTy) : PTy → PTy
  | .array e dynamic m => .array (PTy.withStructures g e) dynamic m
  | .compound name _ _ _ _ => g name
  | t => t

/-- What the line for a field says: nothing about the name of padding, and only the name of a structure. -/
def Field.said (g : Str → PTy) (f : Field) : Field :=
  ⟨f.type.withStructures g, if f.type.isVoid then none else some (f.name.getD (lit "None"))⟩

def Attrs.said (g : Str → PTy) (a : Attrs) : Attrs := ⟨a.fields.map (Field.said g), [], a.isUnion⟩

/-! ## Proofs -/

/-! ### Characters -/

theorem decimal_isDigit (n : Nat) : ∀ c ∈ decimal n, isDigit c = true := by
  intro c hc
  have := decimal_digit n c hc
  simp only [Char.isDigit, Bool.and_eq_true, decide_eq_true_eq] at this
  rw [isDigit_iff]
  exact this

/-- A character of a word, other than brackets. -/
def Plain (c : Char) : Prop := isSpace c = false ∧ c ≠ '#' ∧ c ≠ '[' ∧ c ≠ ']'

theorem range_plain (c : Char) (h1 : 36 ≤ c.toNat) (h2 : c.toNat ≤ 122) (h3 : c.toNat ≠ 91) (h4 : c.toNat ≠ 93) : Plain c := by
  refine ⟨?_, ?_, ?_, ?_⟩
  · simp only [isSpace, Bool.or_eq_false_iff, Bool.and_eq_false_iff, decide_eq_false_iff_not, beq_eq_false_iff_ne]
    omega
  all_goals
    rintro rfl
    revert h1 h2 h3 h4
    decide

theorem name_plain (c : Char) (h : Lower c ∨ Upper c ∨ Digit c ∨ c = '_') : Plain c := by
  rcases h with h | h | h | rfl
  · exact range_plain c (by have := h.1; omega) (by have := h.2; omega) (by have := h.1; omega) (by have := h.1; omega)
  · exact range_plain c (by have := h.1; omega) (by have := h.2; omega) (by have := h.2; omega) (by have := h.2; omega)
  · exact range_plain c (by have := h.1; omega) (by have := h.2; omega) (by have := h.2; omega) (by have := h.2; omega)
  · exact range_plain _ (by decide) (by decide) (by decide) (by decide)

theorem decimal_plain (n : Nat) : ∀ c ∈ decimal n, Plain c := fun c hc =>
  name_plain c (.inr (.inr (.inl ((isDigit_iff c).1 (decimal_isDigit n c hc)))))

theorem attributeName_plain {s : Str} (h : AttributeName s) : s ≠ [] ∧ ∀ c ∈ s, Plain c := by
  obtain ⟨c, cs, rfl, h1, h2⟩ := h
  refine ⟨by simp, ?_⟩
  intro x hx
  rcases List.mem_cons.1 hx with rfl | hx
  · exact name_plain x (h1.elim .inl (fun h => .inr (.inl h)))
  · exact name_plain x (h2 x hx)

theorem namespaceName_plain {s : Str} (h : NamespaceName s) : ∀ c ∈ s, Plain c := by
  obtain ⟨c, cs, rfl, h1, h2⟩ := h
  intro x hx
  rcases List.mem_cons.1 hx with rfl | hx
  · exact name_plain x (.inl h1)
  · rcases h2 x hx with h | h | h
    · exact name_plain x (.inl h)
    · exact name_plain x (.inr (.inr (.inl h)))
    · exact name_plain x (.inr (.inr (.inr h)))

theorem typeName_plain {s : Str} (h : TypeName s) : (∀ c ∈ s, Plain c) ∧ '.' ∈ s ∧ ∃ c cs, s = c :: cs ∧ Lower c := by
  obtain ⟨-, ns, short, hne, hns, hshort, rfl⟩ := h
  refine ⟨?_, ?_, ?_⟩
  · intro x hx
    rcases List.mem_append.1 hx with hx | hx
    · simp only [dotted, List.mem_flatten, List.mem_map] at hx
      obtain ⟨l, ⟨n, hn, rfl⟩, hx⟩ := hx
      rcases List.mem_append.1 hx with hx | hx
      · exact namespaceName_plain (hns n hn) x hx
      · rw [List.mem_singleton.1 hx]; exact range_plain _ (by decide) (by decide) (by decide) (by decide)
    · obtain ⟨c, cs, rfl, h1, h2⟩ := hshort
      rcases List.mem_cons.1 hx with rfl | hx
      · exact name_plain x (.inr (.inl h1))
      · exact name_plain x (h2 x hx)
  · cases ns with
    | nil => exact absurd rfl hne
    | cons n ns => simp [dotted]
  · cases ns with
    | nil => exact absurd rfl hne
    | cons n ns =>
      obtain ⟨c, cs, rfl, h1, -⟩ := hns n List.mem_cons_self
      exact ⟨c, _, rfl, h1⟩

theorem lit_plain (s : String) (h : ∀ c ∈ s.toList, 97 ≤ c.toNat ∧ c.toNat ≤ 122) : ∀ c ∈ lit s, Plain c :=
  fun c hc => name_plain c (.inl (h c hc))

theorem append_plain {a b : Str} (ha : ∀ c ∈ a, Plain c) (hb : ∀ c ∈ b, Plain c) : ∀ c ∈ a ++ b, Plain c := by
  intro c hc
  rcases List.mem_append.1 hc with hc | hc
  · exact ha c hc
  · exact hb c hc

/-- The word of a type that is not an array. -/
theorem word_plain (t : PTy) (h : GoodType t) (ha : t.isArray = false) : (∀ c ∈ t.word, Plain c) ∧ ∃ c cs, t.word = c :: cs ∧ Lower c := by
  cases h with
  | void n h1 h2 => exact ⟨append_plain (lit_plain _ (by decide)) (decimal_plain n), _, _, rfl, by unfold Lower; decide⟩
  | prim p h =>
    obtain ⟨k, b, t⟩ := p
    cases k with
    | boolean => exact ⟨lit_plain _ (by decide), _, _, rfl, by unfold Lower; decide⟩
    | unsigned => exact ⟨append_plain (lit_plain _ (by decide)) (decimal_plain b), _, _, rfl, by unfold Lower; decide⟩
    | signed => exact ⟨append_plain (lit_plain _ (by decide)) (decimal_plain b), _, _, rfl, by unfold Lower; decide⟩
    | float => exact ⟨append_plain (lit_plain _ (by decide)) (decimal_plain b), _, _, rfl, by unfold Lower; decide⟩
  | array e d m => cases ha
  | compound name ov u names types hname =>
    exact ⟨(typeName_plain hname).1, (typeName_plain hname).2.2⟩

theorem isArray_false {e : PTy} (ha : ∀ e' d' m', e ≠ .array e' d' m') : e.isArray = false := by
  cases e with
  | array e' d' m' => exact absurd rfl (ha e' d' m')
  | _ => rfl

theorem size_plain (dynamic : Bool) (m : Nat) : ∀ c ∈ (if dynamic then lit "<=" else []) ++ decimal m, Plain c := by
  refine append_plain ?_ (decimal_plain m)
  intro c hc
  cases dynamic with
  | false => cases hc
  | true =>
    have hc : c ∈ ['<', '='] := hc
    simp only [List.mem_cons, List.not_mem_nil, or_false] at hc
    rcases hc with rfl | rfl
    · exact range_plain _ (by decide) (by decide) (by decide) (by decide)
    · exact range_plain _ (by decide) (by decide) (by decide) (by decide)

theorem word_token (t : PTy) (h : GoodType t) : IsToken t.word ∧ ∃ c cs, t.word = c :: cs ∧ Lower c := by
  have gen : ∀ t, GoodType t → t.isArray = false → IsToken t.word ∧ ∃ c cs, t.word = c :: cs ∧ Lower c := by
    intro t h ha
    obtain ⟨h1, c, cs, h2, h3⟩ := word_plain t h ha
    exact ⟨⟨by rw [h2]; simp, fun x hx => ⟨(h1 x hx).1, (h1 x hx).2.1⟩⟩, c, cs, h2, h3⟩
  cases h with
  | array e d m he ha hm =>
    obtain ⟨⟨-, h1⟩, c, cs, h2, h3⟩ := gen e he (isArray_false ha)
    refine ⟨⟨by simp [PTy.word], ?_⟩, c, _, by rw [PTy.word, h2, List.cons_append, List.cons_append], h3⟩
    intro x hx
    rcases List.mem_append.1 hx with hx | hx
    · rcases List.mem_append.1 hx with hx | hx
      · exact h1 x hx
      · rcases List.mem_cons.1 hx with rfl | hx
        · decide
        · exact ⟨(size_plain d m x hx).1, (size_plain d m x hx).2.1⟩
    · rw [List.mem_singleton.1 hx]; decide
  | void n h1 h2 => exact gen _ (.void n h1 h2) rfl
  | prim p h => exact gen _ (.prim p h) rfl
  | compound name ov u names types hname hl hnd hn hu ht => exact gen _ (.compound name ov u names types hname hl hnd hn hu ht) rfl

/-! ### The text -/

theorem norm_word (t : PTy) : t.norm = (match t.cast with | none => [] | some c => c ++ lit " ") ++ t.word := by
  induction t using PTy.rec (motive_2 := fun _ => True) with
  | void n => rfl
  | prim p =>
    obtain ⟨k, b, t⟩ := p
    cases k <;> rfl
  | array e d m ih =>
    rw [PTy.norm, ih]
    cases d <;> simp [PTy.cast, PTy.word, lit]
  | compound => rfl
  | nil => trivial
  | cons => trivial

theorem normField_line (f : Field) : normField f.name f.type = writeLine (fieldLine f) := by
  obtain ⟨t, n⟩ := f
  have gen : t.norm ++ lit " " ++ n.getD (lit "None") = writeLine (t.cast.toList ++ [t.word, n.getD (lit "None")]) := by
    rw [norm_word]
    cases t.cast <;> simp [writeLine, lit]
  cases t with
  | void m => rfl
  | prim p => exact gen
  | array e d m => exact gen
  | compound => exact gen

theorem cast_token (t : PTy) (c : Str) (h : t.cast = some c) : (c = lit "saturated" ∨ c = lit "truncated") ∧ IsToken c := by
  have hs : IsToken (lit "saturated") ∧ IsToken (lit "truncated") := by unfold IsToken; decide
  have : c = lit "saturated" ∨ c = lit "truncated" := by
    induction t using PTy.rec (motive_2 := fun _ => True) with
    | void n => cases h
    | prim p =>
      simp only [PTy.cast, Option.some.injEq] at h
      split at h
      · exact .inr h.symm
      · exact .inl h.symm
    | array e d m ih => exact ih h
    | compound => cases h
    | nil => trivial
    | cons => trivial
  exact ⟨this, this.elim (fun e => e ▸ hs.1) (fun e => e ▸ hs.2)⟩

/-- A field as the parser makes them. -/
def GoodField (f : Field) : Prop := GoodType f.type ∧ ∀ n, f.name = some n → AttributeName n

theorem shown_name (f : Field) (h : GoodField f) : AttributeName (f.name.getD (lit "None")) := by
  cases hn : f.name with
  | none => rw [← attributeNameOk_iff]; decide
  | some n => exact h.2 n hn

theorem fieldLine_tokens (f : Field) (h : GoodField f) : fieldLine f ≠ [] ∧ ∀ w ∈ fieldLine f, IsToken w := by
  have hw := (word_token f.type h.1).1
  have hn : IsToken (f.name.getD (lit "None")) := by
    obtain ⟨h1, h2⟩ := attributeName_plain (shown_name f h)
    exact ⟨h1, fun c hc => ⟨(h2 c hc).1, (h2 c hc).2.1⟩⟩
  unfold fieldLine
  split
  · exact ⟨by simp, fun w hw' => by rw [List.mem_singleton.1 hw']; exact hw⟩
  · refine ⟨by simp, ?_⟩
    intro w hw'
    rcases List.mem_append.1 hw' with hc | hc
    · exact (cast_token f.type w (by simpa using hc)).2
    · simp only [List.mem_cons, List.not_mem_nil, or_false] at hc
      rcases hc with rfl | rfl
      · exact hw
      · exact hn

theorem writeLine_ends (l : List Str) (hne : l ≠ []) (h : ∀ w ∈ l, IsToken w) :
    (∃ c, (writeLine l).head? = some c ∧ isSpace c = false) ∧ ∃ c, (writeLine l).getLast? = some c ∧ isSpace c = false := by
  induction l with
  | nil => exact absurd rfl hne
  | cons w ws ih =>
    obtain ⟨hw, hc⟩ := h w List.mem_cons_self
    have hh : ∃ c, w.head? = some c ∧ isSpace c = false := by
      cases w with
      | nil => exact absurd rfl hw
      | cons c w => exact ⟨c, rfl, (hc c List.mem_cons_self).1⟩
    cases ws with
    | nil =>
      refine ⟨hh, ?_⟩
      have := List.getLast?_eq_some_getLast hw
      exact ⟨_, this, (hc _ (List.mem_of_getLast? this)).1⟩
    | cons w2 ws =>
      obtain ⟨-, c, h1, h2⟩ := ih (by simp) (fun x hx => h x (List.mem_cons_of_mem _ hx))
      refine ⟨?_, c, ?_, h2⟩
      · obtain ⟨c, h1, h2⟩ := hh
        exact ⟨c, by rw [writeLine, List.head?_append, h1]; rfl; simp, h2⟩
      · have e : w ++ ' ' :: writeLine (w2 :: ws) = (w ++ [' ']) ++ writeLine (w2 :: ws) := by simp
        rw [writeLine, e, List.getLast?_append, h1]
        · rfl
        · simp

theorem writeLine_line (l : List Str) (hne : l ≠ []) (h : ∀ w ∈ l, IsToken w) : IsLine (writeLine l) := by
  obtain ⟨h1, h2⟩ := writeLine_ends l hne h
  refine ⟨?_, h1, h2⟩
  intro hm
  exact absurd (writeLine_chars l h _ hm).2 (by decide)

theorem typeName_line {s : Str} (h : TypeName s) : IsLine s := by
  obtain ⟨h1, -, c, cs, rfl, h2⟩ := typeName_plain h
  have := writeLine_line [c :: cs] (by simp) (by
    intro w hw
    rw [List.mem_singleton.1 hw]
    exact ⟨by simp, fun x hx => ⟨(h1 x hx).1, (h1 x hx).2.1⟩⟩)
  exact this

theorem belowText_join (n : Str) (ls : List (List Str)) : joinWith (lit "\n") (n :: ls.map writeLine) = n ++ belowText ls := by
  induction ls generalizing n with
  | nil => simp [joinWith, belowText]
  | cons l ls ih =>
    rw [List.map_cons, joinWith, ih, belowText]
    · simp [lit]
    · simp

theorem attrs_good_fields {a : Attrs} (h : GoodAttrs a) : ∀ f ∈ a.fields, GoodField f := by
  intro f hf
  refine ⟨h.2.2.1 f hf, ?_⟩
  intro n hn
  exact h.2.1 n (List.mem_append_left _ (List.mem_filterMap.2 ⟨f, hf, hn⟩))

theorem attrs_text (a : Attrs) : partLines a.isUnion a.defs = (attrsLines a).map writeLine := by
  have : a.defs = a.fields.map fun f => writeLine (fieldLine f) := by
    unfold Attrs.defs
    exact List.map_congr_left fun f _ => normField_line f
  rw [partLines, attrsLines, this]
  cases a.isUnion <;> simp [writeLine]

theorem sourceText_good (d : Def) (h : GoodDef d) : d.sourceText = d.fullName ++ belowText (defLines d) := by
  obtain ⟨h1, h2, h3, -⟩ := h
  have gen : ∀ a : Attrs, GoodAttrs a → ∀ x ∈ a.defs, IsLine x := by
    intro a ha x hx
    obtain ⟨f, hf, rfl⟩ := List.mem_map.1 hx
    rw [normField_line]
    have := fieldLine_tokens f (attrs_good_fields ha f hf)
    exact writeLine_line _ this.1 this.2
  unfold Def.sourceText
  rw [sourceText_lines _ _ _ _ (typeName_line h1) (gen _ h2), ← belowText_join]
  · congr 2
    rw [attrs_text]
    cases hr : d.response with
    | none => simp [defLines, hr, responseLines]
    | some r =>
      simp only [Option.map_some, attrs_text, defLines, hr, List.map_append, List.map_cons, responseLines]
      rfl
  · intro u ds hr
    cases hr' : d.response with
    | none => rw [hr'] at hr; cases hr
    | some r =>
      rw [hr'] at hr
      simp only [Option.map_some, Option.some.injEq, Prod.mk.injEq] at hr
      rw [← hr.2]
      exact gen r (h3 r hr')

/-- The normalised text of an accepted definition: its name and, below, the lines of its fields. -/
theorem C78_text (fs : FS) (eval : Str → Option PyVal) (dirs : List Str) (n : Nat) (filename : Str) (d : Def)
    (h : parse fs eval dirs n filename = .ok d) : d.sourceText = d.fullName ++ belowText (defLines d) :=
  sourceText_good d (C75_accepted fs eval dirs n filename d h)

/-! ### Reading the lines -/

theorem int10_decimal (n : Nat) : int10 (decimal n) = some (n : Int) := by
  unfold int10
  rw [strip_of_no_space _ (fun c hc => (decimal_plain n c hc).1)]
  have hd := digits_complete 10 _ n (digits_decimal n)
  obtain ⟨c, cs, hc, hdig⟩ := decimal_head_digit n
  rw [hc] at hd ⊢
  have h1 : c ≠ '+' := by rintro rfl; revert hdig; decide
  have h2 : c ≠ '-' := by rintro rfl; revert hdig; decide
  unfold signed
  split
  · rename_i e; injection e with e1 e2; exact absurd e1 h2
  · rename_i e; injection e with e1 e2; exact absurd e1 h1
  · rw [hd]; rfl

theorem decimal_length (n : Nat) (h : n ≤ 64) : 1 ≤ (decimal n).length ∧ (decimal n).length ≤ 2 := by
  have : ∀ n : Fin 65, 1 ≤ (decimal n).length ∧ (decimal n).length ≤ 2 := by decide
  exact this ⟨n, by omega⟩

theorem all_digits (n : Nat) : (decimal n).all isDigit = true := List.all_eq_true.2 (decimal_isDigit n)

theorem takeWhile_lower (a : Str) (ha : ∀ c ∈ a, isLower c = true) (n : Nat) :
    (a ++ decimal n).takeWhile isLower = a ∧ (a ++ decimal n).dropWhile isLower = decimal n := by
  obtain ⟨c, cs, hc, hdig⟩ := decimal_head_digit n
  have hl : isLower c = false := by
    have := (isDigit_iff c).1 (decimal_isDigit n c (hc ▸ List.mem_cons_self))
    rw [Bool.eq_false_iff, Ne, isLower_iff]
    intro h
    have := this.2
    have := h.1
    omega
  rw [List.takeWhile_append_of_pos ha, List.dropWhile_append_of_pos ha, hc]
  simp [List.takeWhile_cons, List.dropWhile_cons, hl]

/-- A word without brackets. -/
theorem parseType_plain (nested : Str → Except Err PTy) (s : Str) (h : ∀ c ∈ s, Plain c) (cast : Option Str) :
    parseType nested s cast =
      match voidMatch s with
      | some ds => match int10 (strip ds) with
        | some b => parseVoid b
        | none => fail
      | none =>
        match primMatch s with
        | some (base, some ds) => match int10 ds with
          | some b => parsePrimitive base b cast
          | none => fail
        | some (base, none) => parsePrimitive base 1 cast
        | none => (do enforce cast.isNone; nested s) := by
  have hs := strip_of_no_space s (fun c hc => (h c hc).1)
  have ha : arrayMatch s = none := arrayMatchAux_none [] s (fun c hc => (h c hc).2.2.1)
  simp only [parseType, parseTypeAux, hs, ha]
  rfl

theorem parseType_void (nested : Str → Except Err PTy) (n : Nat) (h1 : 1 ≤ n) (h2 : n ≤ 64) (cast : Option Str) :
    parseType nested (lit "void" ++ decimal n) cast = .ok (.void n) := by
  rw [parseType_plain nested _ (append_plain (lit_plain _ (by decide)) (decimal_plain n))]
  have hv : voidMatch (lit "void" ++ decimal n) = some (decimal n) := by
    have hp : (lit "void").isPrefixOf (lit "void" ++ decimal n) = true := by
      rw [List.isPrefixOf_iff_prefix]; exact List.prefix_append _ _
    have hd : (lit "void" ++ decimal n).drop 4 = decimal n := rfl
    simp only [voidMatch, hp, hd, all_digits, decimal_length n h2, if_true, decide_true, Bool.and_self]
  simp only [hv]
  rw [strip_of_no_space _ (fun c hc => (decimal_plain n c hc).1), int10_decimal]
  simp only [parseVoid]
  rw [show ((1 : Int) ≤ n && (n : Int) ≤ 64) = true by simp; omega]
  rfl

theorem primMatch_word (base : Str) (hb : base ≠ []) (hl : ∀ c ∈ base, isLower c = true) (n : Nat) (h2 : n ≤ 64) :
    primMatch (base ++ decimal n) = some (base, some (decimal n)) := by
  obtain ⟨h3, h4⟩ := takeWhile_lower base hl n
  obtain ⟨h5, h6⟩ := decimal_length n h2
  simp only [primMatch, h3, h4, all_digits, h5, h6, decide_true, Bool.and_true, decide_eq_true hb, if_true]

theorem voidMatch_other (c : Char) (cs : Str) (h : c ≠ 'v') : voidMatch (c :: cs) = none := by
  have : (lit "void").isPrefixOf (c :: cs) = false := by
    rw [Bool.eq_false_iff, Ne, void_prefix]
    rintro ⟨r, e⟩
    injection e with e1 e2
    exact h e1
  simp only [voidMatch, this, Bool.false_eq_true, if_false]

theorem parseType_prim (nested : Str → Except Err PTy) (p : PrimTy) (h : GoodPrim p) :
    parseType nested (PTy.prim p).word (PTy.prim p).cast = .ok (.prim p) := by
  obtain ⟨k, b, tr⟩ := p
  have hw := (word_plain (.prim ⟨k, b, tr⟩) (.prim _ h) rfl).1
  have hcast : castOf (some (if tr then lit "truncated" else lit "saturated")) = .ok tr := by cases tr <;> rfl
  rw [parseType_plain nested _ hw]
  cases k with
  | boolean =>
    have hb : b = 1 := h
    subst hb
    show parsePrimitive (lit "bool") 1 _ = _
    simp only [parsePrimitive, PTy.cast, hcast]
    rfl
  | unsigned =>
    have hb : 2 ≤ b ∧ b ≤ 64 := h
    have hv : voidMatch (lit "uint" ++ decimal b) = none := voidMatch_other _ _ (by decide)
    simp only [PTy.word, hv, primMatch_word (lit "uint") (by decide) (by decide) b hb.2, int10_decimal]
    simp only [parsePrimitive, PTy.cast, hcast]
    rw [show ((2 : Int) ≤ b && (b : Int) ≤ 64) = true by simp; omega]
    rfl
  | signed =>
    have hb : 2 ≤ b ∧ b ≤ 64 := h
    have hv : voidMatch (lit "int" ++ decimal b) = none := voidMatch_other _ _ (by decide)
    simp only [PTy.word, hv, primMatch_word (lit "int") (by decide) (by decide) b hb.2, int10_decimal]
    simp only [parsePrimitive, PTy.cast, hcast]
    rw [show ((2 : Int) ≤ b && (b : Int) ≤ 64) = true by simp; omega]
    rfl
  | float =>
    have hb : b = 16 ∨ b = 32 ∨ b = 64 := h
    have hv : voidMatch (lit "float" ++ decimal b) = none := voidMatch_other _ _ (by decide)
    simp only [PTy.word, hv, primMatch_word (lit "float") (by decide) (by decide) b (by omega), int10_decimal]
    simp only [parsePrimitive, PTy.cast, hcast]
    rw [show ((b : Int) = 16 || (b : Int) = 32 || (b : Int) = 64) = true by simp; omega]
    rfl

theorem parseType_name (nested : Str → Except Err PTy) (s : Str) (h : TypeName s) : parseType nested s none = nested s := by
  obtain ⟨h1, hdot, -⟩ := typeName_plain h
  rw [parseType_plain nested s h1]
  have hv : voidMatch s = none := by
    unfold voidMatch
    split
    · rename_i hp
      obtain ⟨r, rfl⟩ := (void_prefix s).1 hp
      have hm : '.' ∈ r := by
        simp only [List.mem_cons] at hdot
        rcases hdot with h | h | h | h | h
        · cases h
        · cases h
        · cases h
        · cases h
        · exact h
      have : r.all isDigit = false := by
        rw [Bool.eq_false_iff]
        intro ha
        exact absurd (List.all_eq_true.1 ha _ hm) (by decide)
      simp [this]
    · rfl
  have hp : primMatch s = none := by
    have hm : '.' ∈ s.dropWhile isLower := by
      rw [← List.takeWhile_append_dropWhile (p := isLower) (l := s)] at hdot
      rcases List.mem_append.1 hdot with h | h
      · exact absurd (List.all_eq_true.1 (List.all_takeWhile (p := isLower) (l := s)) _ h) (by decide)
      · exact h
    have : (s.dropWhile isLower).all isDigit = false := by
      rw [Bool.eq_false_iff]
      intro ha
      exact absurd (List.all_eq_true.1 ha _ hm) (by decide)
    have hb : s ≠ lit "bool" := by
      rintro rfl
      exact absurd hdot (by decide)
    simp [primMatch, this, hb]
  simp only [hv, hp]
  rfl

/-- The structures of these names are what `nested` finds. -/
def Finds (nested : Str → Except Err PTy) (g : Str → PTy) (t : PTy) : Prop :=
  ∀ name ov u names types, t.structure? = some (.compound name ov u names types) → nested name = .ok (g name) ∧ (g name).isCompound = true

theorem isCompound_isArray {t : PTy} (h : t.isCompound = true) : t.isArray = false := by
  cases t with
  | array => cases h
  | _ => rfl

theorem parseType_word (nested : Str → Except Err PTy) (g : Str → PTy) (t : PTy) (h : GoodType t) (hg : Finds nested g t) :
    parseType nested t.word t.cast = .ok (t.withStructures g) := by
  have gen : ∀ t, GoodType t → t.isArray = false → Finds nested g t →
      parseType nested t.word t.cast = .ok (t.withStructures g) ∧ (t.withStructures g).isArray = false := by
    intro t h ha hg
    cases h with
    | void n h1 h2 => exact ⟨parseType_void nested n h1 h2 _, rfl⟩
    | prim p h => exact ⟨parseType_prim nested p h, rfl⟩
    | array => cases ha
    | compound name ov u names types hname =>
      obtain ⟨h1, h2⟩ := hg name ov u names types rfl
      exact ⟨by rw [PTy.word, PTy.cast, parseType_name nested name hname, h1]; rfl, isCompound_isArray h2⟩
  cases h with
  | array e d m he ha hm =>
    have ha := isArray_false ha
    obtain ⟨h1, h2⟩ := gen e he ha hg
    obtain ⟨hp, c, cs, hc, -⟩ := word_plain e he ha
    rw [PTy.word, PTy.cast, C58_array_type nested e.word _ e.cast (by rw [hc]; simp)
      (fun x hx => ⟨(hp x hx).2.2.1, (hp x hx).1⟩) (fun x hx => ⟨(size_plain d m x hx).2.2.2, (size_plain d m x hx).1⟩), h1]
    have hs : parseSize ((if d then lit "<=" else []) ++ decimal m) = .ok (d, m) := by
      obtain ⟨s1, -, s3⟩ := C58_decimal m
      cases d with
      | true => rw [if_pos rfl, s1, if_pos hm]
      | false => rw [if_neg (by decide), List.nil_append, s3, if_pos hm]
    simp only [bind, Except.bind, h2, Bool.false_eq_true, if_false, hs]
    rfl
  | void n h1 h2 => exact (gen _ (.void n h1 h2) rfl hg).1
  | prim p h => exact (gen _ (.prim p h) rfl hg).1
  | compound name ov u names types hname hl hnd hn hu ht =>
    exact (gen _ (.compound name ov u names types hname hl hnd hn hu ht) rfl hg).1

theorem cast_none_word (t : PTy) (h : GoodType t) (hc : t.cast = none) : t.word ≠ lit "saturated" ∧ t.word ≠ lit "truncated" := by
  have gen : ∀ t, GoodType t → t.isArray = false → t.cast = none → (∃ r, t.word = 'v' :: r) ∨ '.' ∈ t.word := by
    intro t h ha hc
    cases h with
    | void n h1 h2 => exact .inl ⟨_, rfl⟩
    | prim p h => cases hc
    | array => cases ha
    | compound name ov u names types hname => exact .inr (typeName_plain hname).2.1
  have : (∃ r, t.word = 'v' :: r) ∨ '.' ∈ t.word := by
    cases h with
    | array e d m he ha hm =>
      rcases gen e he (isArray_false ha) hc with ⟨r, hr⟩ | hr
      · exact .inl ⟨_, by rw [PTy.word, hr, List.cons_append, List.cons_append]⟩
      · exact .inr (List.mem_append_left _ (List.mem_append_left _ hr))
    | void n h1 h2 => exact gen _ (.void n h1 h2) rfl hc
    | prim p h => cases hc
    | compound name ov u names types hname hl hnd hn hu ht => exact gen _ (.compound name ov u names types hname hl hnd hn hu ht) rfl hc
  rcases this with ⟨r, hr⟩ | hr
  · rw [hr]
    refine ⟨fun e => ?_, fun e => ?_⟩
    · have : some 'v' = (lit "saturated").head? := congrArg List.head? e
      exact absurd this (by decide)
    · have : some 'v' = (lit "truncated").head? := congrArg List.head? e
      exact absurd this (by decide)
  · exact ⟨by intro e; rw [e] at hr; exact absurd hr (by decide), by intro e; rw [e] at hr; exact absurd hr (by decide)⟩

theorem castMode_line (t : PTy) (h : GoodType t) (ws : List Str) : castMode (t.cast.toList ++ t.word :: ws) = (t.cast, t.word :: ws) := by
  cases hc : t.cast with
  | none =>
    obtain ⟨h1, h2⟩ := cast_none_word t h hc
    simp [castMode, h1, h2]
  | some c => simp [castMode, (cast_token t c hc).1]

/-- The line for a field is read as the field. -/
theorem parseLine_fieldLine (nested : Str → Except Err PTy) (eval : Str → Option PyVal) (g : Str → PTy) (f : Field) (h : GoodField f)
    (hg : Finds nested g f.type) : parseLine nested eval (fieldLine f) = .ok (.field (f.said g)) := by
  have hp := parseType_word nested g f.type h.1 hg
  have hn := (attributeNameOk_iff _).2 (shown_name f h)
  have hc := castMode_line f.type h.1
  obtain ⟨t, n⟩ := f
  have gen : t.isVoid = false → parseLine nested eval (t.cast.toList ++ [t.word, n.getD (lit "None")]) =
      .ok (.field (Field.said g ⟨t, n⟩)) := by
    intro hv
    unfold parseLine
    rw [hc]
    dsimp only at hn hp ⊢
    rw [hn, hp]
    simp only [Field.said, hv]
    rfl
  cases t with
  | void m =>
    have hc : castMode [(PTy.void m).word] = (none, [(PTy.void m).word]) := hc []
    show parseLine nested eval [(PTy.void m).word] = _
    unfold parseLine
    rw [hc]
    dsimp only at hp ⊢
    rw [show PTy.cast (.void m) = none from rfl] at hp
    rw [hp, show (lit "void").isPrefixOf (PTy.void m).word = true by
      rw [List.isPrefixOf_iff_prefix]; exact List.prefix_append _ _]
    rfl
  | prim p => exact gen rfl
  | array e d m => exact gen rfl
  | compound => exact gen rfl

theorem fieldLine_special (f : Field) (h : GoodField f) :
    fieldLine f ≠ [lit "---"] ∧ fieldLine f ≠ [lit "@union"] ∧ ∀ b, fieldLine f ≠ [lit "OVERRIDE_SIGNATURE", b] := by
  obtain ⟨-, c, cs, hw, hl⟩ := word_token f.type h.1
  have hcast := cast_token f.type
  obtain ⟨t, n⟩ := f
  dsimp only at hw hl hcast
  have hword : t.word ≠ lit "---" ∧ t.word ≠ lit "@union" ∧ t.word ≠ lit "OVERRIDE_SIGNATURE" := by
    rw [hw]
    refine ⟨?_, ?_, ?_⟩ <;>
    · intro e
      injection e with e1 e2
      subst e1
      revert hl
      unfold Lower
      decide
  have gen : t.cast.toList ++ [t.word, n.getD (lit "None")] ≠ [lit "---"] ∧ t.cast.toList ++ [t.word, n.getD (lit "None")] ≠ [lit "@union"] ∧
      ∀ b, t.cast.toList ++ [t.word, n.getD (lit "None")] ≠ [lit "OVERRIDE_SIGNATURE", b] := by
    cases hc : t.cast with
    | none => simp [hword]
    | some c => simp
  cases t with
  | void m =>
    refine ⟨?_, ?_, ?_⟩
    · intro e; exact hword.1 (List.singleton_inj.1 e)
    · intro e; exact hword.2.1 (List.singleton_inj.1 e)
    · intro b e; simp [fieldLine] at e
  | prim p => exact gen
  | array e d m => exact gen
  | compound => exact gen

/-! ### Reading the text -/

theorem splitlinesAux_below (ls : List (List Str)) (h : ∀ l ∈ ls, l ≠ [] ∧ ∀ w ∈ l, IsToken w) : ∀ (cur l : Str),
    (∀ c ∈ l, isBreak c = false) → cur ++ l ≠ [] → splitlinesAux cur (l ++ belowText ls) = (cur.reverse ++ l) :: ls.map writeLine := by
  induction ls with
  | nil =>
    intro cur l
    induction l generalizing cur with
    | nil =>
      intro _ hne
      cases cur with
      | nil => exact absurd rfl hne
      | cons c cur => simp [belowText, splitlinesAux]
    | cons c l ih =>
      intro hl hne
      have hc := hl c List.mem_cons_self
      have hcr : c ≠ '\r' := by intro e; subst e; revert hc; decide
      rw [List.cons_append, splitlinesAux]
      · simp only [hc, Bool.false_eq_true, if_false]
        rw [ih (c :: cur) (fun x hx => hl x (List.mem_cons_of_mem _ hx)) (by simp)]
        simp
      · intro cs' h1 _; exact hcr h1
  | cons x ls ih =>
    intro cur l hl hne
    obtain ⟨hx, hw⟩ := h x List.mem_cons_self
    rw [belowText, List.cons_append, splitlinesAux_line l hl,
      ih (fun y hy => h y (List.mem_cons_of_mem _ hy)) [] (writeLine x) (fun c hc => (writeLine_chars x hw c hc).2) ?_]
    · simp
    · obtain ⟨c, hc, -⟩ := (writeLine_ends x hx hw).1
      intro e
      rw [List.nil_append] at e
      rw [e] at hc
      cases hc

theorem tokenize_below (ls : List (List Str)) (h : ∀ l ∈ ls, l ≠ [] ∧ ∀ w ∈ l, IsToken w) :
    (tokenize (belowText ls)).map Prod.snd = ls := by
  cases ls with
  | nil => rfl
  | cons x ls =>
    obtain ⟨hx, hw⟩ := h x List.mem_cons_self
    have hs : splitlines (belowText (x :: ls)) = splitlines (writeText ([] :: x :: ls)) := by
      rw [splitlines_writeText _ (by
        intro l hl
        rcases List.mem_cons.1 hl with rfl | hl
        · intro w hw; cases hw
        · exact (h l hl).2)]
      have : splitlines (belowText (x :: ls)) = [] :: splitlinesAux [] (writeLine x ++ belowText ls) :=
        splitlinesAux_line [] (by simp) [] _
      rw [this, splitlinesAux_below ls (fun y hy => h y (List.mem_cons_of_mem _ hy)) [] (writeLine x)
        (fun c hc => (writeLine_chars x hw c hc).2) ?_]
      · rfl
      · obtain ⟨c, hc, -⟩ := (writeLine_ends x hx hw).1
        intro e
        rw [List.nil_append] at e
        rw [e] at hc
        cases hc
    have ht : tokenize (belowText (x :: ls)) = numbered 1 ([] :: x :: ls) := by
      rw [← C57_tokens _ (by
        intro l hl
        rcases List.mem_cons.1 hl with rfl | hl
        · intro w hw; cases hw
        · exact (h l hl).2)]
      simp only [tokenize, hs]
    rw [ht]
    have gen : ∀ (ls : List (List Str)) (n : Nat), (∀ l ∈ ls, l ≠ []) → (numbered n ls).map Prod.snd = ls := by
      intro ls
      induction ls with
      | nil => intro n _; rfl
      | cons l ls ih =>
        intro n hl
        simp only [numbered, if_neg (hl l List.mem_cons_self), List.map_cons]
        rw [ih _ (fun y hy => hl y (List.mem_cons_of_mem _ hy))]
    rw [numbered, if_pos rfl]
    exact gen _ _ (fun l hl => (h l hl).1)

theorem defLines_tokens (d : Def) (h : GoodDef d) : ∀ l ∈ defLines d, l ≠ [] ∧ ∀ w ∈ l, IsToken w := by
  have hu : IsToken (lit "@union") ∧ IsToken (lit "---") := by unfold IsToken; decide
  have gen : ∀ a : Attrs, GoodAttrs a → ∀ l ∈ attrsLines a, l ≠ [] ∧ ∀ w ∈ l, IsToken w := by
    intro a ha l hl
    rcases List.mem_append.1 hl with hl | hl
    · split at hl
      · rw [List.mem_singleton.1 hl]
        exact ⟨by simp, fun w hw => by rw [List.mem_singleton.1 hw]; exact hu.1⟩
      · cases hl
    · obtain ⟨f, hf, rfl⟩ := List.mem_map.1 hl
      exact fieldLine_tokens f (attrs_good_fields ha f hf)
  intro l hl
  rcases List.mem_append.1 hl with hl | hl
  · exact gen _ h.2.1 l hl
  · split at hl
    · cases hl
    · rename_i r hr
      rcases List.mem_cons.1 hl with rfl | hl
      · exact ⟨by simp, fun w hw => by rw [List.mem_singleton.1 hw]; exact hu.2⟩
      · exact gen r (h.2.2.1 r hr) l hl

/-- The lines of fields, read one after the other. -/
theorem parseStatements_fieldLines (nested : Str → Except Err PTy) (eval : Str → Option PyVal) (g : Str → PTy) (rest : List (List Str))
    (fs : List Field) (h : ∀ f ∈ fs, GoodField f ∧ Finds nested g f.type) : ∀ s : State,
    ((fs.map (Field.said g)).filterMap Field.name).Nodup → (∀ n ∈ (fs.map (Field.said g)).filterMap Field.name, n ∉ s.names) →
    ∃ names, parseStatements nested eval (fs.map fieldLine ++ rest) s =
      parseStatements nested eval rest { s.setCurrent { s.current with fields := s.current.fields ++ fs.map (Field.said g) } with names := names } := by
  induction fs with
  | nil =>
    intro s _ _
    refine ⟨s.names, ?_⟩
    have : ({ s.setCurrent { s.current with fields := s.current.fields ++ [].map (Field.said g) } with names := s.names } : State) = s := by
      obtain ⟨ns, b, r, o⟩ := s
      cases r <;> simp [State.setCurrent, State.current]
    rw [this]
    rfl
  | cons f fs ih =>
    intro s hnd hnew
    obtain ⟨hf, hg⟩ := h f List.mem_cons_self
    obtain ⟨h1, h2, h3⟩ := fieldLine_special f hf
    have hstep : parseStatement nested eval s (fieldLine f) = addAttr s (.field (f.said g)) := by
      have hl := parseLine_fieldLine nested eval g f hf hg
      unfold parseStatement
      rw [if_neg h1, if_neg h2]
      split
      · rename_i a b heq
        rw [if_neg (by rintro rfl; exact h3 b heq), hl]
        rfl
      · rw [hl]
        rfl
    rw [List.map_cons, List.cons_append, parseStatements, hstep]
    have hset : ∀ (a b : Attrs) (ns ns' : List Str),
        ({ State.setCurrent { s.setCurrent a with names := ns } b with names := ns' } : State) = { s.setCurrent b with names := ns' } := by
      intro a b ns ns'
      obtain ⟨n, b', r, o⟩ := s
      cases r <;> rfl
    have hset' : ∀ (a b : Attrs) (ns' : List Str),
        ({ State.setCurrent (s.setCurrent a) b with names := ns' } : State) = { s.setCurrent b with names := ns' } := by
      intro a b ns'
      obtain ⟨n, b', r, o⟩ := s
      cases r <;> rfl
    have hcur : ∀ (a : Attrs) (ns : List Str), State.current { s.setCurrent a with names := ns } = a ∧ (s.setCurrent a).current = a := by
      intro a ns
      obtain ⟨n, b', r, o⟩ := s
      cases r <;> exact ⟨rfl, rfl⟩
    cases hn : (f.said g).name with
    | none =>
      have hadd : addAttr s (.field (f.said g)) = .ok (s.setCurrent { s.current with fields := s.current.fields ++ [f.said g] }) := by
        simp only [addAttr, hn]
      rw [hadd]
      simp only [List.map_cons, List.filterMap_cons, hn] at hnd hnew
      obtain ⟨names, hh⟩ := ih (fun x hx => h x (List.mem_cons_of_mem _ hx))
        (s.setCurrent { s.current with fields := s.current.fields ++ [f.said g] }) hnd (by
          intro n hm
          have e : (s.setCurrent { s.current with fields := s.current.fields ++ [f.said g] }).names = s.names := by
            obtain ⟨n, b', r, o⟩ := s
            cases r <;> rfl
          rw [e]
          exact hnew n hm)
      refine ⟨names, ?_⟩
      show parseStatements nested eval (fs.map fieldLine ++ rest) _ = _
      rw [hh, hset', (hcur _ []).2]
      simp only [List.append_assoc, List.map_cons, List.cons_append, List.nil_append]
    | some n =>
      simp only [List.map_cons, List.filterMap_cons, hn, List.nodup_cons, List.mem_cons] at hnd hnew
      have hnot : s.names.contains n = false := by
        rw [Bool.eq_false_iff]
        intro hc
        exact hnew n (.inl rfl) (by simpa using hc)
      have hadd : addAttr s (.field (f.said g)) =
          .ok { s.setCurrent { s.current with fields := s.current.fields ++ [f.said g] } with names := n :: s.names } := by
        simp only [addAttr, hn, hnot, Bool.false_eq_true, if_false]
      rw [hadd]
      obtain ⟨names, hh⟩ := ih (fun x hx => h x (List.mem_cons_of_mem _ hx))
        { s.setCurrent { s.current with fields := s.current.fields ++ [f.said g] } with names := n :: s.names } hnd.2 (by
          intro m hm hmem
          rcases List.mem_cons.1 hmem with rfl | hmem
          · exact hnd.1 hm
          · exact hnew m (.inr hm) hmem)
      refine ⟨names, ?_⟩
      show parseStatements nested eval (fs.map fieldLine ++ rest) _ = _
      rw [hh, hset, (hcur _ _).1]
      simp only [List.append_assoc, List.map_cons, List.cons_append, List.nil_append]

/-- The lines of a part, read when nothing of the part has been read. -/
theorem parseStatements_attrsLines (nested : Str → Except Err PTy) (eval : Str → Option PyVal) (g : Str → PTy) (rest : List (List Str))
    (a : Attrs) (h : ∀ f ∈ a.fields, GoodField f ∧ Finds nested g f.type) (hnd : ((a.fields.map (Field.said g)).filterMap Field.name).Nodup)
    (s : State) (hs : s.current = {}) (hn : s.names = []) :
    ∃ names, parseStatements nested eval (attrsLines a ++ rest) s =
      parseStatements nested eval rest { s.setCurrent (a.said g) with names := names } := by
  have h0 : ({} : Attrs).isUnion = false := rfl
  cases hu : a.isUnion with
  | false =>
    obtain ⟨names, hh⟩ := parseStatements_fieldLines nested eval g rest a.fields h s hnd (by rw [hn]; simp)
    refine ⟨names, ?_⟩
    simp only [attrsLines, hu, Bool.false_eq_true, if_false, List.nil_append, hh, hs, Attrs.said]
  | true =>
    have hstep : parseStatement nested eval s [lit "@union"] = .ok (s.setCurrent { s.current with isUnion := true }) := by
      unfold parseStatement
      rw [if_neg (by decide), if_pos rfl, hs, h0]
      rfl
    obtain ⟨names, hh⟩ := parseStatements_fieldLines nested eval g rest a.fields h (s.setCurrent { s.current with isUnion := true }) hnd (by
      have e : (s.setCurrent { s.current with isUnion := true }).names = s.names := by
        obtain ⟨n, b', r, o⟩ := s
        cases r <;> rfl
      rw [e, hn]; simp)
    refine ⟨names, ?_⟩
    rw [attrsLines, hu, if_pos rfl, List.cons_append, List.cons_append, parseStatements, hstep]
    show parseStatements nested eval ([] ++ a.fields.map fieldLine ++ rest) _ = _
    rw [List.nil_append, hh]
    congr 1
    obtain ⟨n, b', r, o⟩ := s
    cases r with
    | none =>
      have hs : b' = {} := hs
      subst hs
      simp [State.setCurrent, State.current, Attrs.said, hu]
    | some r =>
      have hs : r = {} := hs
      subst hs
      simp [State.setCurrent, State.current, Attrs.said, hu]

/-- Fields other than padding have names. -/
def Named (a : Attrs) : Prop := ∀ f ∈ a.fields, f.type.isVoid = false → f.name ≠ none

theorem said_names (g : Str → PTy) (a : Attrs) (h : Named a) :
    ((a.fields.map (Field.said g)).filterMap Field.name).Sublist (a.fields.filterMap Field.name) := by
  unfold Named at h
  generalize a.fields = fs at h
  induction fs with
  | nil => exact .slnil
  | cons f fs ih =>
    have ih := ih (fun x hx => h x (List.mem_cons_of_mem _ hx))
    have hf := h f List.mem_cons_self
    simp only [List.map_cons, List.filterMap_cons]
    cases hv : f.type.isVoid with
    | true =>
      simp only [Field.said, hv, if_true]
      cases f.name with
      | none => exact ih
      | some n => exact .cons _ ih
    | false =>
      simp only [Field.said, hv, Bool.false_eq_true, if_false]
      cases hn : f.name with
      | none => exact absurd hn (hf hv)
      | some n => exact .cons₂ _ ih

theorem withStructures_void (g : Str → PTy) (t : PTy) (hg : ∀ name ov u names types, t = .compound name ov u names types → (g name).isCompound = true) :
    (t.withStructures g).isVoid = t.isVoid := by
  cases t with
  | compound name ov u names types =>
    have := hg name ov u names types rfl
    simp only [PTy.withStructures]
    cases hx : g name with
    | compound => rfl
    | _ => rw [hx] at this; cases this
  | _ => rfl

theorem said_union (nested : Str → Except Err PTy) (g : Str → PTy) (a : Attrs) (ha : GoodAttrs a) (h : ∀ f ∈ a.fields, Finds nested g f.type) :
    unionOk (a.said g) = true := by
  cases hu : a.isUnion with
  | false => simp [unionOk, Attrs.said, hu]
  | true =>
    obtain ⟨h1, h2⟩ := ha.2.2.2.2 hu
    have h3 : ((a.fields.map (Field.said g)).any fun f => f.type.isVoid) = false := by
      rw [List.any_eq_false]
      intro x hx
      obtain ⟨f, hf, rfl⟩ := List.mem_map.1 hx
      have := withStructures_void g f.type (by
        intro name ov u names types e
        exact (h f hf name ov u names types (by rw [e]; rfl)).2)
      show ¬ (f.type.withStructures g).isVoid = true
      rw [this]
      intro hv
      cases ht : f.type with
      | void n => exact h2 f hf n ht
      | _ => rw [ht] at hv; cases hv
    simp only [unionOk, Attrs.said, hu, h3, List.length_map]
    simp only [Bool.not_true, Bool.false_or, Bool.not_false, Bool.and_true, decide_eq_true_eq]
    omega

/-- Reading the lines of a definition. -/
theorem parseSource_defLines (nested : Str → Except Err PTy) (eval : Str → Option PyVal) (g : Str → PTy) (d : Def) (hd : GoodDef d)
    (hb : Named d.body ∧ ∀ f ∈ d.body.fields, Finds nested g f.type)
    (hr : ∀ r, d.response = some r → Named r ∧ ∀ f ∈ r.fields, Finds nested g f.type) :
    parseSource nested eval (d.fullName, d.version, d.defaultDtid) (belowText (defLines d)) =
      .ok ⟨d.fullName, d.version, d.defaultDtid, none, d.body.said g, d.response.map (Attrs.said g)⟩ := by
  have hnodup : ∀ a : Attrs, GoodAttrs a → Named a → ((a.fields.map (Field.said g)).filterMap Field.name).Nodup :=
    fun a ha hn => List.Nodup.sublist (said_names g a hn) (List.nodup_append.1 ha.1).1
  have hparse : ∃ names, parseStatements nested eval (defLines d) {} =
      .ok ⟨names, d.body.said g, d.response.map (Attrs.said g), none⟩ := by
    obtain ⟨-, h2, h3, -⟩ := hd
    obtain ⟨n1, e1⟩ := parseStatements_attrsLines nested eval g (match d.response with | none => [] | some r => [lit "---"] :: attrsLines r)
      d.body (fun f hf => ⟨attrs_good_fields h2 f hf, hb.2 f hf⟩) (hnodup _ h2 hb.1) {} rfl rfl
    unfold defLines
    rw [e1]
    cases hresp : d.response with
    | none => exact ⟨n1, rfl⟩
    | some r =>
      have hstep : ∀ s : State, s.response = none → parseStatement nested eval s [lit "---"] =
          .ok { s with
            response := some {}
            names := [] } := by
        intro s hs
        unfold parseStatement
        rw [if_pos rfl, hs]
      have h3 := h3 r hresp
      have hr := hr r hresp
      obtain ⟨n2, e2⟩ := parseStatements_attrsLines nested eval g [] r (fun f hf => ⟨attrs_good_fields h3 f hf, hr.2 f hf⟩)
        (hnodup _ h3 hr.1) ⟨[], d.body.said g, some {}, none⟩ rfl rfl
      refine ⟨n2, ?_⟩
      simp only [parseStatements]
      rw [hstep _ rfl]
      rw [List.append_nil] at e2
      exact e2
  obtain ⟨names, hparse⟩ := hparse
  unfold parseSource
  rw [tokenize_below _ (defLines_tokens d hd), hparse]
  have hu1 := said_union nested g d.body hd.2.1 hb.2
  have hdt : dtidOk (d.response.map (Attrs.said g)).isSome d.defaultDtid = true := by
    have := hd.2.2.2
    unfold dtidOk
    split
    · rfl
    · rename_i i hi
      have := this i hi
      simp only [Option.isSome_map, Bool.and_eq_true, decide_eq_true_eq]
      refine ⟨this.1, ?_⟩
      split <;> rename_i hh
      · rw [if_pos hh] at this; omega
      · rw [if_neg hh] at this; omega
  cases hresp : d.response with
  | none =>
    rw [hresp] at hdt
    simp only [Option.map_none] at hdt ⊢
    simp only [bind, Except.bind, hu1, hdt, enforce, Bool.true_and, if_true, Bool.and_true]
  | some r =>
    rw [hresp] at hdt
    have hu2 := said_union nested g r (hd.2.2.1 r hresp) (hr r hresp).2
    simp only [Option.map_some] at hdt ⊢
    simp only [bind, Except.bind, hu1, hu2, hdt, enforce, Bool.and_true, if_true]

/-! ### The text of a definition in place of the file -/

/-- The field without the name of padding. -/
def Field.kept (f : Field) : Field := if f.type.isVoid then { f with name := none } else f

/-- A part without constants and names of padding. -/
def Attrs.kept (a : Attrs) : Attrs := ⟨a.fields.map Field.kept, [], a.isUnion⟩

/-- The definition without constants, names of padding and explicit signature. -/
def Def.kept (d : Def) : Def :=
  { d with
    override := none
    body := d.body.kept
    response := d.response.map Attrs.kept }

theorem withStructures_self (g : Str → PTy) (t : PTy)
    (h : ∀ name ov u names types, t.structure? = some (.compound name ov u names types) → g name = .compound name ov u names types) :
    t.withStructures g = t := by
  induction t using PTy.rec (motive_2 := fun _ => True) with
  | void n => rfl
  | prim p => rfl
  | array e d m ih => rw [PTy.withStructures, ih h]
  | compound name ov u names types => exact h name ov u names types rfl
  | nil => trivial
  | cons => trivial

theorem said_kept (g : Str → PTy) (a : Attrs) (hn : Named a)
    (h : ∀ f ∈ a.fields, ∀ name ov u names types, f.type.structure? = some (.compound name ov u names types) →
      g name = .compound name ov u names types) : a.said g = a.kept := by
  unfold Attrs.said Attrs.kept
  congr 1
  apply List.map_congr_left
  intro f hf
  unfold Field.said Field.kept
  rw [withStructures_self g f.type (h f hf)]
  obtain ⟨t, n⟩ := f
  dsimp only
  split
  · rfl
  · rename_i hv
    cases n with
    | none => exact absurd rfl (hn _ hf (by simpa using hv))
    | some n => rfl

/-- Read in the place of the definition's file, without changing the files of other definitions, the lines below the name give the
definition back, without its constants, the names of padding and an explicit signature. -/
theorem reparse_here (fs : FS) (eval eval' : Str → Option PyVal) (dirs : List Str) (n : Nat) (filename : Str) (d : Def)
    (h : parse fs eval dirs (n + 1) filename = .ok d) (hb : Named d.body) (hr : ∀ r, d.response = some r → Named r) :
    parseSource (parseCompound fs dirs (parse fs eval dirs n) filename) eval' (d.fullName, d.version, d.defaultDtid) (belowText (defLines d)) =
      .ok d.kept := by
  have hgood := C75_accepted fs eval dirs (n + 1) filename d h
  simp only [parse] at h
  split at h
  · cases h
  · obtain ⟨info, hi, h⟩ := bind_ok h
    have hst := parseSource_fields (fun f => ∀ c, f.type.structure? = some c → ∃ s, parseCompound fs dirs (parse fs eval dirs n) filename s = .ok c)
      _ eval (fun tokens f hf c hc => parseLine_structure _ (parseCompound_compound fs dirs _ filename) eval tokens f hf c hc) info _ d h
    have hself : ∀ f : Field, (∀ c, f.type.structure? = some c → ∃ s, parseCompound fs dirs (parse fs eval dirs n) filename s = .ok c) →
        ∀ name ov u names types, f.type.structure? = some (.compound name ov u names types) →
          parseCompound fs dirs (parse fs eval dirs n) filename name = .ok (.compound name ov u names types) := by
      intro f hf name ov u names types hs
      obtain ⟨s, hs⟩ := hf _ hs
      obtain ⟨fn, d', -, -, -, e, -, h6⟩ := parseCompound_found fs eval dirs n filename s _ hs
      injection e with e1
      have := h6 filename
      rwa [← e1] at this
    let g : Str → PTy := fun s =>
      match parseCompound fs dirs (parse fs eval dirs n) filename s with
      | .ok t => t
      | .error _ => .void 0
    have hg : ∀ f : Field, (∀ c, f.type.structure? = some c → ∃ s, parseCompound fs dirs (parse fs eval dirs n) filename s = .ok c) →
        ∀ name ov u names types, f.type.structure? = some (.compound name ov u names types) → g name = .compound name ov u names types := by
      intro f hf name ov u names types hs
      show (match parseCompound fs dirs (parse fs eval dirs n) filename name with
        | .ok t => t
        | .error _ => PTy.void 0) = _
      rw [hself f hf name ov u names types hs]
    have hfinds : ∀ f : Field, (∀ c, f.type.structure? = some c → ∃ s, parseCompound fs dirs (parse fs eval dirs n) filename s = .ok c) →
        Finds (parseCompound fs dirs (parse fs eval dirs n) filename) g f.type := by
      intro f hf name ov u names types hs
      rw [hg f hf name ov u names types hs]
      exact ⟨hself f hf name ov u names types hs, rfl⟩
    rw [parseSource_defLines _ eval' g d hgood ⟨hb, fun f hf => hfinds f (hst.1 f hf)⟩
      (fun r hr' => ⟨hr r hr', fun f hf => hfinds f (hst.2 r hr' f hf)⟩)]
    rw [said_kept g d.body hb (fun f hf => hg f (hst.1 f hf))]
    unfold Def.kept
    congr 2
    cases hresp : d.response with
    | none => rfl
    | some r =>
      rw [Option.map_some, Option.map_some, said_kept g r (hr r hresp) (fun f hf => hg f (hst.2 r hresp f hf))]

/-- The file system with another text in one file. -/
def FS.withText (fs : FS) (filename text : Str) : FS := { fs with read := fun f => if f = filename then some text else fs.read f }

/-- A file that is not accepted with a depth does not matter for those that are. -/
theorem parse_withText (fs : FS) (eval : Str → Option PyVal) (dirs : List Str) (filename text : Str) (n : Nat)
    (hno : ∀ m, m ≤ n → ∀ d, parse fs eval dirs m filename ≠ .ok d) : ∀ fn d, parse fs eval dirs n fn = .ok d →
    parse (fs.withText filename text) eval dirs n fn = .ok d := by
  induction n with
  | zero => intro fn d h; cases h
  | succ n ih =>
    intro fn d h
    have ih := ih (fun m hm => hno m (by omega))
    have hne : fn ≠ filename := by rintro rfl; exact hno (n + 1) (by omega) d h
    have hloc : ∀ r s, locate (fs.withText filename text) dirs r s = locate fs dirs r s := fun r s => rfl
    have hread : (fs.withText filename text).read fn = fs.read fn := if_neg hne
    simp only [parse] at h ⊢
    rw [hread]
    split at h
    · cases h
    · refine bind_mono (fun a ha => ha) (fun info hh => parseSource_mono ?_ eval info _ d hh) h
      intro s t hs
      exact bind_mono (m := locate fs dirs fn s) (fun a ha => ha) (fun a ha => bind_mono (fun x hx => ih _ x hx) (fun x hx => hx) ha) hs

/-- The normalised text of an accepted definition says what the definition is: written into the file, below the name, it gives the
definition back, without its constants, the names of padding and an explicit signature. -/
theorem C78_reparse (fs : FS) (eval : Str → Option PyVal) (dirs : List Str) (n : Nat) (filename : Str) (d : Def)
    (h : parse fs eval dirs n filename = .ok d) (hb : Named d.body) (hr : ∀ r, d.response = some r → Named r) :
    ∃ lines, d.sourceText = d.fullName ++ lines ∧ parse (fs.withText filename lines) eval dirs n filename = .ok d.kept := by
  refine ⟨belowText (defLines d), C78_text fs eval dirs n filename d h, ?_⟩
  -- the smallest depth
  have hmin : ∃ m, m ≤ n ∧ parse fs eval dirs m filename = .ok d ∧ ∀ k, k < m → ∀ d', parse fs eval dirs k filename ≠ .ok d' := by
    induction n using Nat.strongRecOn generalizing d with
    | ind n ih =>
      rcases Classical.em (∃ k, k < n ∧ ∃ d', parse fs eval dirs k filename = .ok d') with ⟨k, hk, d', hd'⟩ | hno
      · have hsame := C82_depth fs eval dirs k n (by omega) filename d' hd'
        rw [h] at hsame
        injection hsame with hsame
        subst hsame
        obtain ⟨m, h1, h2, h3⟩ := ih k hk d hd' hb hr
        exact ⟨m, by omega, h2, h3⟩
      · exact ⟨n, by omega, h, fun k hk d' hd' => hno ⟨k, hk, d', hd'⟩⟩
  obtain ⟨m, hmn, hm, hleast⟩ := hmin
  refine C82_depth _ eval dirs m n hmn filename _ ?_
  cases m with
  | zero => cases hm
  | succ m =>
    have hread : (fs.withText filename (belowText (defLines d))).read filename = some (belowText (defLines d)) := if_pos rfl
    simp only [parse, hread]
    rw [parse_info fs eval dirs _ filename d hm]
    refine parseSource_mono ?_ eval _ _ _ (reparse_here fs eval eval dirs m filename d hm hb hr)
    intro s t hs
    exact bind_mono (m := locate fs dirs filename s) (fun a ha => ha)
      (fun a ha => bind_mono (fun x hx => parse_withText fs eval dirs filename _ m (fun k hk => hleast k (by omega)) _ x hx) (fun x hx => hx) ha) hs

/-! ### The text says everything that matters -/

/-- The name of a structure only. -/
def stub (name : Str) : PTy := .compound name none false [] []

theorem belowText_inj (a b : List (List Str)) (ha : ∀ l ∈ a, l ≠ [] ∧ ∀ w ∈ l, IsToken w) (hb : ∀ l ∈ b, l ≠ [] ∧ ∀ w ∈ l, IsToken w)
    (h : belowText a = belowText b) : a = b := by
  rw [← tokenize_below a ha, ← tokenize_below b hb, h]

theorem belowText_head (ls : List (List Str)) : belowText ls = [] ∨ ∃ r, belowText ls = '\n' :: r := by
  cases ls with
  | nil => exact .inl rfl
  | cons l ls => exact .inr ⟨_, rfl⟩

theorem name_split (a b x y : Str) (ha : '\n' ∉ a) (hb : '\n' ∉ b) (hx : x = [] ∨ ∃ r, x = '\n' :: r) (hy : y = [] ∨ ∃ r, y = '\n' :: r)
    (h : a ++ x = b ++ y) : a = b ∧ x = y := by
  induction a generalizing b with
  | nil =>
    cases b with
    | nil => exact ⟨rfl, h⟩
    | cons c b =>
      rw [List.nil_append] at h
      rcases hx with rfl | ⟨r, rfl⟩
      · cases h
      · injection h with h1 h2
        subst h1
        exact absurd List.mem_cons_self hb
  | cons c a ih =>
    cases b with
    | nil =>
      rw [List.nil_append] at h
      rcases hy with rfl | ⟨r, rfl⟩
      · cases h
      · injection h with h1 h2
        subst h1
        exact absurd List.mem_cons_self ha
    | cons c' b =>
      injection h with h1 h2
      obtain ⟨h3, h4⟩ := ih b (fun e => ha (List.mem_cons_of_mem _ e)) (fun e => hb (List.mem_cons_of_mem _ e)) h2
      exact ⟨by rw [h1, h3], h4⟩

theorem fieldLine_inj (f f' : Field) (hf : GoodField f) (hf' : GoodField f') (h : fieldLine f = fieldLine f') : f.said stub = f'.said stub := by
  have h1 := parseLine_fieldLine (fun s => .ok (stub s)) (fun _ => none) stub f hf (fun _ _ _ _ _ _ => ⟨rfl, rfl⟩)
  have h2 := parseLine_fieldLine (fun s => .ok (stub s)) (fun _ => none) stub f' hf' (fun _ _ _ _ _ _ => ⟨rfl, rfl⟩)
  rw [h, h2] at h1
  injection h1 with h1
  injection h1 with h1
  exact h1.symm

/-- Lines of fields, and what follows them. -/
theorem fieldLines_inj (fs fs' : List Field) (hf : ∀ f ∈ fs, GoodField f) (hf' : ∀ f ∈ fs', GoodField f) (r r' : List (List Str))
    (hr : r = [] ∨ ∃ x, r = [lit "---"] :: x) (hr' : r' = [] ∨ ∃ x, r' = [lit "---"] :: x)
    (h : fs.map fieldLine ++ r = fs'.map fieldLine ++ r') : fs.map (Field.said stub) = fs'.map (Field.said stub) ∧ r = r' := by
  induction fs generalizing fs' with
  | nil =>
    cases fs' with
    | nil => exact ⟨rfl, h⟩
    | cons f fs' =>
      rcases hr with rfl | ⟨x, rfl⟩
      · cases h
      · injection h with h1 h2
        exact absurd h1.symm (fieldLine_special f (hf' f List.mem_cons_self)).1
  | cons f fs ih =>
    cases fs' with
    | nil =>
      rcases hr' with rfl | ⟨x, rfl⟩
      · cases h
      · injection h with h1 h2
        exact absurd h1 (fieldLine_special f (hf f List.mem_cons_self)).1
    | cons f' fs' =>
      injection h with h1 h2
      obtain ⟨h3, h4⟩ := ih fs' (fun x hx => hf x (List.mem_cons_of_mem _ hx)) (fun x hx => hf' x (List.mem_cons_of_mem _ hx)) h2
      have := fieldLine_inj f f' (hf f List.mem_cons_self) (hf' f' List.mem_cons_self) h1
      exact ⟨by rw [List.map_cons, List.map_cons, this, h3], h4⟩

theorem attrsLines_inj (a a' : Attrs) (ha : GoodAttrs a) (ha' : GoodAttrs a') (r r' : List (List Str))
    (hr : r = [] ∨ ∃ x, r = [lit "---"] :: x) (hr' : r' = [] ∨ ∃ x, r' = [lit "---"] :: x)
    (h : attrsLines a ++ r = attrsLines a' ++ r') : a.said stub = a'.said stub ∧ r = r' := by
  have hf := attrs_good_fields ha
  have hf' := attrs_good_fields ha'
  have hno : ∀ (fs : List Field) (x : List (List Str)), (∀ f ∈ fs, GoodField f) → (x = [] ∨ ∃ y, x = [lit "---"] :: y) →
      ∀ y, fs.map fieldLine ++ x ≠ [lit "@union"] :: y := by
    intro fs x hfs hx y e
    cases fs with
    | nil =>
      rcases hx with rfl | ⟨z, rfl⟩
      · cases e
      · injection e with e1 e2
        exact absurd e1 (by decide)
    | cons f fs =>
      injection e with e1 e2
      exact (fieldLine_special f (hfs f List.mem_cons_self)).2.1 e1
  unfold attrsLines at h
  unfold Attrs.said
  cases hu : a.isUnion <;> cases hu' : a'.isUnion <;> rw [hu, hu'] at h
  · obtain ⟨h1, h2⟩ := fieldLines_inj _ _ hf hf' r r' hr hr' h
    exact ⟨by rw [h1], h2⟩
  · exact absurd h (hno _ _ hf hr _)
  · exact absurd h.symm (hno _ _ hf' hr' _)
  · injection h with h1 h2
    obtain ⟨h1, h2⟩ := fieldLines_inj _ _ hf hf' r r' hr hr' h2
    exact ⟨by rw [h1], h2⟩

/-- Two accepted definitions with the same normalised text have the same name, the same fields with the same names and types, up to
what is inside structures, the same union marks, and both or none have a response. -/
theorem C78_determines (fs fs' : FS) (eval eval' : Str → Option PyVal) (dirs dirs' : List Str) (n n' : Nat) (filename filename' : Str)
    (d d' : Def) (h : parse fs eval dirs n filename = .ok d) (h' : parse fs' eval' dirs' n' filename' = .ok d')
    (ht : d.sourceText = d'.sourceText) :
    d.fullName = d'.fullName ∧ d.body.said stub = d'.body.said stub ∧ d.response.map (Attrs.said stub) = d'.response.map (Attrs.said stub) := by
  have hg := C75_accepted fs eval dirs n filename d h
  have hg' := C75_accepted fs' eval' dirs' n' filename' d' h'
  rw [sourceText_good d hg, sourceText_good d' hg'] at ht
  obtain ⟨hn, hl⟩ := name_split _ _ _ _ (typeName_line hg.1).noNewline (typeName_line hg'.1).noNewline (belowText_head _) (belowText_head _) ht
  have hl := belowText_inj _ _ (defLines_tokens d hg) (defLines_tokens d' hg') hl
  unfold defLines at hl
  obtain ⟨h1, h2⟩ := attrsLines_inj _ _ hg.2.1 hg'.2.1 _ _
    (by cases d.response with | none => exact .inl rfl | some r => exact .inr ⟨_, rfl⟩)
    (by cases d'.response with | none => exact .inl rfl | some r => exact .inr ⟨_, rfl⟩) hl
  refine ⟨hn, h1, ?_⟩
  cases hr : d.response with
  | none =>
    cases hr' : d'.response with
    | none => rfl
    | some r' => rw [hr, hr'] at h2; cases h2
  | some r =>
    cases hr' : d'.response with
    | none => rw [hr, hr'] at h2; cases h2
    | some r' =>
      rw [hr, hr'] at h2
      injection h2 with _ h2
      have := attrsLines_inj r r' (hg.2.2.1 r hr) (hg'.2.2.1 r' hr') [] [] (.inl rfl) (.inl rfl) (by simpa using h2)
      rw [Option.map_some, Option.map_some, this.1]

/-- The line for a field whose type is a structure or an array of structures needs the structure. -/
theorem needs_field (f : Field) (hf : GoodField f) (name : Str) (ov : Option Int) (u : Bool) (names : List (Option Str)) (types : List PTy)
    (hs : f.type.structure? = some (.compound name ov u names types)) : Needs (fieldLine f) name := by
  intro nested eval s hno s' h
  obtain ⟨h1, h2, h3⟩ := fieldLine_special f hf
  have hline : ∀ a, parseLine nested eval (fieldLine f) ≠ .ok a := by
    have hc := castMode_line f.type hf.1
    have hw : ∀ t, parseType nested f.type.word f.type.cast ≠ .ok t := by
      have hgood := hf.1
      generalize f.type = t at hs hgood
      cases hgood with
      | void => cases hs
      | prim => cases hs
      | compound name' ov' u' names' types' hname =>
        injection hs with hs
        injection hs with hs
        subst hs
        rw [PTy.word, PTy.cast, parseType_name nested _ hname]
        exact hno
      | array e d m he ha hm =>
        cases he with
        | void => cases hs
        | prim => cases hs
        | array e' d' m' => exact absurd rfl (ha e' d' m')
        | compound name' ov' u' names' types' hname =>
          injection hs with hs
          injection hs with hs
          subst hs
          obtain ⟨hp, -, c, cs, hcc, -⟩ := typeName_plain hname
          intro t ht
          have ht : parseType nested (name' ++ '[' :: ((if d then lit "<=" else []) ++ decimal m) ++ [']']) none = .ok t := ht
          rw [C58_array_type nested _ _ _ (by rw [hcc]; simp) (fun x hx => ⟨(hp x hx).2.2.1, (hp x hx).1⟩)
            (fun x hx => ⟨(size_plain d m x hx).2.2.2, (size_plain d m x hx).1⟩), parseType_name nested _ hname] at ht
          obtain ⟨x, hx, -⟩ := bind_ok ht
          exact hno x hx
    obtain ⟨t, nm⟩ := f
    have gen : t.isVoid = false → ∀ a, parseLine nested eval (t.cast.toList ++ [t.word, nm.getD (lit "None")]) ≠ .ok a := by
      intro _ a ha
      unfold parseLine at ha
      rw [hc] at ha
      obtain ⟨-, ha⟩ := enforce_bind ha
      obtain ⟨x, hx, -⟩ := bind_ok ha
      exact hw x hx
    cases t with
    | void => cases hs
    | prim => cases hs
    | array e d m => exact gen rfl
    | compound => exact gen rfl
  have hbind : ∀ x, (parseLine nested eval (fieldLine f)).bind (addAttr s) ≠ .ok x := by
    intro x hx
    obtain ⟨a, ha, -⟩ := bind_ok hx
    exact hline a ha
  unfold parseStatement at h
  rw [if_neg h1, if_neg h2] at h
  split at h
  · rename_i a b heq
    rw [if_neg (by rintro rfl; exact h3 b heq)] at h
    exact hbind _ h
  · exact hbind _ h

/-! ### Examples -/

/-- A service with a union, padding, constants, and a structure of the example. -/
def exampleService : FS where
  read s :=
    if s = lit "/d/ns/5.S.uavcan" then
      some (lit "OVERRIDE_SIGNATURE 0x12\nA[<5] first  # note\nvoid3 pad\nuint8 K = 3\n---\n@union\nint7 x\ntruncated uint9[2] y\n")
    else exampleFS.read s
  listdir := exampleFS.listdir
  isfile s := s = lit "/d/ns/5.S.uavcan" || exampleFS.isfile s

/-- Its normalised text, and it is accepted with named fields. -/
example : (match parse exampleService exampleEval [lit "/d/ns"] 5 (lit "/d/ns/5.S.uavcan") with
    | .ok d => d.sourceText == lit "ns.S\nns.A[<=4] first\nvoid3\n---\n@union\nsaturated int7 x\ntruncated uint9[2] y" &&
        d.body.fields.all (fun f => f.type.isVoid || f.name.isSome) &&
        (match d.response with | some r => r.fields.all (fun f => f.type.isVoid || f.name.isSome) | none => false)
    | .error _ => false) = true := by decide +kernel

/-- A file that refers to itself. -/
def selfFS : FS where
  read s := if s = lit "/ns/A.uavcan" then some (lit "uint8 x\nns.A[<=3] a") else none
  listdir s := if s = lit "/ns" then some [lit "A.uavcan"] else none
  isfile s := s = lit "/ns/A.uavcan"

example : Chain selfFS [lit "/ns"] (lit "/ns/A.uavcan") (lit "/ns/A.uavcan") := by
  have hname : TypeName (lit "ns.A") := fullNameOk_name _ (by decide)
  have hgood : GoodField ⟨.array (stub (lit "ns.A")) true 3, some (lit "a")⟩ := by
    refine ⟨.array _ _ _ (.compound _ _ _ _ _ hname rfl .nil (fun n hn => (by cases hn)) (fun h => (by cases h)) (fun t ht => (by cases ht)))
      (fun _ _ _ h => by cases h) (by omega), ?_⟩
    intro n hn
    injection hn with hn
    subst hn
    exact (attributeNameOk_iff _).1 (by decide)
  have hneed := needs_field _ hgood (lit "ns.A") none false [] [] rfl
  exact .one ⟨lit "uint8 x\nns.A[<=3] a", _, _, rfl, by decide +kernel, hneed, by decide +kernel⟩

end Parser
end Dronecan
