import Verif.Props.Source
import Verif.Props.References

/-!
# What a definition says: lines and files (C85)
-/

namespace Dronecan
namespace Parser

open Text

/-! ## Specification -/

/-- Hexadecimal digits, after `0x` or without. -/
inductive HexDigits : Str → Nat → Prop where
  | plain (s : Str) (n : Nat) : Digits 16 s n → HexDigits s n
  | marked (x : Char) (s : Str) (n : Nat) : x = 'x' ∨ x = 'X' → Digits 16 s n → HexDigits ('0' :: x :: s) n
  | markedU (x : Char) (s : Str) (n : Nat) : x = 'x' ∨ x = 'X' → Digits 16 s n → HexDigits ('0' :: x :: '_' :: s) n

/-- With an optional sign. -/
inductive HexLiteral : Str → Int → Prop where
  | plain (s : Str) (n : Nat) : HexDigits s n → HexLiteral s n
  | plus (s : Str) (n : Nat) : HexDigits s n → HexLiteral ('+' :: s) n
  | minus (s : Str) (n : Nat) : HexDigits s n → HexLiteral ('-' :: s) (-(n : Int))

/-- The value of a constant of a kind, from the value of the expression: the code of a character, the number, for integers without its
fraction, for floats the nearest double. -/
inductive ValueOf : Kind → PyVal → ConstVal → Prop where
  | char (k : Kind) (c : Char) : ValueOf k (.str [c]) (.int c.toNat)
  | int (k : Kind) (n : Int) : k ≠ .float → ValueOf k (.int n) (.int n)
  | nearest (n : Int) : ValueOf .float (.int n) (.flt (fl n))
  | float (q : Rat) : ValueOf .float (.flt q) (.flt q)
  | down (k : Kind) (q : Rat) (n : Int) : k ≠ .float → 0 ≤ n → (n : Rat) ≤ q → q < (n : Rat) + 1 → ValueOf k (.flt q) (.int n)
  | up (k : Kind) (q : Rat) (n : Int) : k ≠ .float → n ≤ 0 → q ≤ (n : Rat) → (n : Rat) - 1 < q → ValueOf k (.flt q) (.int n)

/-- What a line can say. -/
inductive Item where
  | separator
  | union
  | override (n : Int)
  | field (f : Field)
  | const (c : Const)

/-- The cast mode at the beginning of a line, and the type after it. -/
inductive Begins : List Str → Option Str → Str → Prop where
  | cast (c t : Str) : c = lit "saturated" ∨ c = lit "truncated" → Begins [c, t] (some c) t
  | none (t : Str) : t ≠ lit "saturated" → t ≠ lit "truncated" → Begins [t] none t

/-- What a line says, word by word. -/
inductive Says (nested : Str → Except Err PTy) (eval : Str → Option PyVal) : List Str → Item → Prop where
  | separator : Says nested eval [lit "---"] .separator
  | union : Says nested eval [lit "@union"] .union
  | override (s : Str) (n : Int) : HexLiteral s n → Says nested eval [lit "OVERRIDE_SIGNATURE", s] (.override n)
  | padding (begin : List Str) (m : Option Str) (r : Str) (t : PTy) : Begins begin m (lit "void" ++ r) → Spells nested m (lit "void" ++ r) t →
      Says nested eval begin (.field ⟨t, none⟩)
  | field (begin : List Str) (m : Option Str) (s name : Str) (t : PTy) : Begins begin m s → begin ≠ [lit "OVERRIDE_SIGNATURE"] →
      Spells nested m s t → AttributeName name → Says nested eval (begin ++ [name]) (.field ⟨t, some name⟩)
  | const (begin : List Str) (m : Option Str) (s name : Str) (p : PrimTy) (expr : List Str) (v : PyVal) (x : ConstVal) : Begins begin m s →
      Spells nested m s (.prim p) → AttributeName name → expr ≠ [] → eval expr.flatten = some v → ValueOf p.kind v x → Allowed p x →
      Says nested eval (begin ++ name :: lit "=" :: expr) (.const ⟨p, name, expr.flatten, x⟩)

/-- What the lines say, one by one. -/
inductive AllSay (nested : Str → Except Err PTy) (eval : Str → Option PyVal) : List (List Str) → List Item → Prop where
  | nil : AllSay nested eval [] []
  | cons (l : List Str) (ls : List (List Str)) (i : Item) (is : List Item) : Says nested eval l i → AllSay nested eval ls is →
      AllSay nested eval (l :: ls) (i :: is)

def Item.field? : Item → Option Field
  | .field f => some f
  | _ => none

def Item.const? : Item → Option Const
  | .const c => some c
  | _ => none

def Item.override? : Item → Option Int
  | .override n => some n
  | _ => none

def Item.name? : Item → Option Str
  | .field f => f.name
  | .const c => some c.name
  | _ => none

def Item.isUnion : Item → Bool
  | .union => true
  | _ => false

def Item.isSeparator : Item → Bool
  | .separator => true
  | _ => false

/-- One part of a definition: fields and constants in order, without repeated names, with at most one union mark. -/
structure PartSays (items : List Item) (a : Attrs) : Prop where
  fields : a.fields = items.filterMap Item.field?
  constants : a.constants = items.filterMap Item.const?
  isUnion : a.isUnion = items.any Item.isUnion
  once : items.countP Item.isUnion ≤ 1
  names : (items.filterMap Item.name?).Nodup

/-- A union has at least two fields, none of which is padding. -/
def UnionFine (a : Attrs) : Prop := a.isUnion = true → 2 ≤ a.fields.length ∧ ∀ f ∈ a.fields, ∀ n, f.type ≠ .void n

/-- The parts: one, or two with a separator between them. -/
inductive PartsSay : List Item → Attrs → Option Attrs → Prop where
  | message (items : List Item) (a : Attrs) : items.any Item.isSeparator = false → PartSays items a → PartsSay items a none
  | service (before after : List Item) (a r : Attrs) : before.any Item.isSeparator = false → after.any Item.isSeparator = false →
      PartSays before a → PartSays after r → PartsSay (before ++ .separator :: after) a (some r)

/-- What the lines of a file say about a type whose name, version and data type ID are known. -/
def SourceSays (nested : Str → Except Err PTy) (eval : Str → Option PyVal) (info : Str × Option (Int × Int) × Option Int)
    (lines : List (List Str)) (d : Def) : Prop :=
  ∃ items, AllSay nested eval lines items ∧ PartsSay items d.body d.response ∧ d.override = (items.filterMap Item.override?).getLast? ∧
    d.fullName = info.1 ∧ d.version = info.2.1 ∧ d.defaultDtid = info.2.2 ∧
    UnionFine d.body ∧ (∀ r, d.response = some r → UnionFine r) ∧
    (∀ i, d.defaultDtid = some i → 0 ≤ i ∧ i ≤ (if d.response = none then 65535 else 255))

/-! ## Numbers -/

theorem unsigned16_iff (s : Str) (n : Nat) : unsigned16 s = some n ↔ HexDigits s n := by
  have hx : ∀ x, x = 'x' ∨ x = 'X' → digitVal x = some 33 := by rintro x (rfl | rfl) <;> decide
  constructor
  · intro h
    unfold unsigned16 at h
    split at h
    · rename_i x cs
      split at h
      · rename_i hc
        have h' := digits_sound 16 _ n h
        unfold skipUnderscore at h'
        split at h'
        · exact .markedU x _ n hc h'
        · exact .marked x _ n hc h'
      · exact .plain _ _ (digits_sound 16 _ n h)
    · exact .plain _ _ (digits_sound 16 _ n h)
  · intro h
    cases h with
    | plain s n h =>
      unfold unsigned16
      split
      · rename_i x cs
        split
        · rename_i hc
          rcases digits_tail_head 16 '0' x cs n h with h1 | ⟨d, h1, h2⟩
          · subst h1; exact absurd hc (by decide)
          · rw [hx x hc] at h1
            injection h1 with h1
            omega
        · exact digits_complete 16 _ n h
      · exact digits_complete 16 _ n h
    | marked x s n hc h =>
      unfold unsigned16
      simp only [if_pos hc]
      have : skipUnderscore s = s := by
        obtain ⟨c, cs, d, rfl, hd, -⟩ := digits_head 16 s n h
        unfold skipUnderscore
        split
        · rename_i e
          injection e with e1 e2
          subst e1
          rw [digitVal_underscore] at hd
          cases hd
        · rfl
      rw [this]
      exact digits_complete 16 _ n h
    | markedU x s n hc h =>
      unfold unsigned16
      simp only [if_pos hc]
      exact digits_complete 16 _ n h

theorem hexDigits_head {s : Str} {n : Nat} (h : HexDigits s n) : ∃ c cs d, s = c :: cs ∧ digitVal c = some d := by
  cases h with
  | plain s n h =>
    obtain ⟨c, cs, d, h1, h2, -⟩ := digits_head 16 s n h
    exact ⟨c, cs, d, h1, h2⟩
  | marked x s n _ h => exact ⟨_, _, 0, rfl, by decide⟩
  | markedU x s n _ h => exact ⟨_, _, 0, rfl, by decide⟩

theorem int16_iff (s : Str) (hs : ∀ c ∈ s, isSpace c = false) (i : Int) : int16 s = some i ↔ HexLiteral s i := by
  unfold int16
  rw [strip_of_no_space s hs]
  constructor
  · intro h
    unfold signed at h
    split at h
    · obtain ⟨n, hn, rfl⟩ := Option.map_eq_some_iff.1 h
      exact .minus _ n ((unsigned16_iff _ _).1 hn)
    · obtain ⟨n, hn, rfl⟩ := Option.map_eq_some_iff.1 h
      exact .plus _ n ((unsigned16_iff _ _).1 hn)
    · obtain ⟨n, hn, rfl⟩ := Option.map_eq_some_iff.1 h
      exact .plain _ n ((unsigned16_iff _ _).1 hn)
  · intro h
    cases h with
    | plain s n h =>
      obtain ⟨c, cs, d, rfl, hd⟩ := hexDigits_head h
      unfold signed
      split
      · rename_i e
        injection e with e1 e2
        subst e1
        revert hd
        simp [show digitVal '-' = none by decide]
      · rename_i e
        injection e with e1 e2
        subst e1
        revert hd
        simp [show digitVal '+' = none by decide]
      · rw [(unsigned16_iff _ _).2 h]; rfl
    | plus s n h => simp only [signed, (unsigned16_iff _ _).2 h]; rfl
    | minus s n h => simp only [signed, (unsigned16_iff _ _).2 h]; rfl

/-! ## Constants -/

theorem convertConst_iff (k : Kind) (v : PyVal) (x : ConstVal) : convertConst k v = .ok x ↔ ValueOf k v x := by
  have hfl : ∀ (q : Rat) (n : Int), q.floor = n ↔ (n : Rat) ≤ q ∧ q < (n : Rat) + 1 := by
    intro q n
    constructor
    · rintro rfl
      refine ⟨Rat.floor_le _, ?_⟩
      have := Rat.lt_floor_add_one q
      push_cast at this
      exact this
    · rintro ⟨h1, h2⟩
      have h3 := Rat.le_floor_iff.2 h1
      have h4 : q.floor < n + 1 := Rat.floor_lt_iff.2 (by push_cast; exact h2)
      omega
  have htr : ∀ q, (0 ≤ truncInt q ∧ (truncInt q : Rat) ≤ q ∧ q < (truncInt q : Rat) + 1) ∨
      (truncInt q ≤ 0 ∧ q ≤ (truncInt q : Rat) ∧ (truncInt q : Rat) - 1 < q) := by
    intro q
    unfold truncInt
    split
    · rename_i hq
      right
      obtain ⟨h1, h2⟩ := (hfl (-q) _).1 rfl
      have h3 : 0 ≤ (-q).floor := Rat.le_floor_iff.2 (by push_cast; grind)
      refine ⟨by omega, ?_, ?_⟩
      · push_cast; grind
      · push_cast; grind
    · rename_i hq
      left
      obtain ⟨h1, h2⟩ := (hfl q _).1 rfl
      exact ⟨Rat.le_floor_iff.2 (by push_cast; grind), h1, h2⟩
  have huniq : ∀ (q : Rat) (n : Int), ((0 ≤ n ∧ (n : Rat) ≤ q ∧ q < (n : Rat) + 1) ∨ (n ≤ 0 ∧ q ≤ (n : Rat) ∧ (n : Rat) - 1 < q)) → truncInt q = n := by
    intro q n h
    unfold truncInt
    rcases h with ⟨h1, h2, h3⟩ | ⟨h1, h2, h3⟩
    · have h0 : (0 : Rat) ≤ (n : Rat) := by exact_mod_cast h1
      rw [if_neg (by grind)]
      exact (hfl q n).2 ⟨h2, h3⟩
    · by_cases hq : q < 0
      · rw [if_pos hq]
        have := (hfl (-q) (-n)).2 ⟨by push_cast; grind, by push_cast; grind⟩
        omega
      · rw [if_neg hq]
        have h0 : (n : Rat) ≤ 0 := by exact_mod_cast h1
        have hq0 : q = 0 := by grind
        have hn : n = 0 := by
          have : (0 : Rat) ≤ (n : Rat) := by grind
          have : 0 ≤ n := by exact_mod_cast this
          omega
        subst hq0 hn
        decide
  constructor
  · intro h
    cases v with
    | str s =>
      match s, h with
      | [c], h => injection h with h; subst h; exact .char k c
      | [], h => cases h
      | _ :: _ :: _, h => cases h
    | int n =>
      cases k with
      | float => injection h with h; subst h; exact .nearest n
      | _ => injection h with h; subst h; exact .int _ n (by simp)
    | flt q =>
      have hd : ∀ k : Kind, k ≠ .float → ValueOf k (.flt q) (.int (truncInt q)) := by
        intro k hk
        rcases htr q with ⟨h1, h2, h3⟩ | ⟨h1, h2, h3⟩
        · exact .down k q _ hk h1 h2 h3
        · exact .up k q _ hk h1 h2 h3
      cases k with
      | float => injection h with h; subst h; exact .float q
      | _ => injection h with h; subst h; exact hd _ (by simp)
    | nonFinite => cases h
    | other => cases h
  · intro h
    cases h with
    | char k c => rfl
    | int k n hk => cases k <;> first | rfl | exact absurd rfl hk
    | nearest n => rfl
    | float q => rfl
    | down k q n hk h1 h2 h3 =>
      have := huniq q n (.inl ⟨h1, h2, h3⟩)
      cases k <;> first | exact absurd rfl hk | (simp only [convertConst, this])
    | up k q n hk h1 h2 h3 =>
      have := huniq q n (.inr ⟨h1, h2, h3⟩)
      cases k <;> first | exact absurd rfl hk | (simp only [convertConst, this])

theorem inRange_number_of (p : PrimTy) (x : Rat) (hp : GoodPrim p) (h : AllowedNumber p x) : (match p.kind with
    | .float => decide (-(floatMax p.bitlen) ≤ x) && decide (x ≤ floatMax p.bitlen)
    | _ => decide (((valueRange p).1 : Rat) ≤ x) && decide (x ≤ ((valueRange p).2 : Rat))) = true := by
  obtain ⟨k, b, tr⟩ := p
  unfold AllowedNumber at h
  dsimp only at h ⊢
  cases k with
  | boolean =>
    simp only [GoodPrim] at hp
    subst hp
    have h2 : ((0 : Int) : Rat) ≤ x := by simpa using h.1
    have h3 : x ≤ ((2 ^ 1 - 1 : Int) : Rat) := by simpa using h.2
    exact Bool.and_eq_true_iff.2 ⟨decide_eq_true h2, decide_eq_true h3⟩
  | unsigned =>
    have h2 : ((0 : Int) : Rat) ≤ x := by simpa using h.1
    have h3 : x ≤ ((2 ^ b - 1 : Int) : Rat) := by push_cast; exact h.2
    exact Bool.and_eq_true_iff.2 ⟨decide_eq_true h2, decide_eq_true h3⟩
  | signed =>
    simp only [GoodPrim] at hp
    dsimp only at h
    have : ((signedRange b).1 : Rat) ≤ x ∧ x ≤ ((signedRange b).2 : Rat) := by
      split at h
      · rename_i hb
        rw [signedRange_small b (by omega) hb]
        push_cast
        exact h
      · rename_i hb
        rw [signedRange_large b (by omega) (by omega)]
        push_cast
        exact h
    exact Bool.and_eq_true_iff.2 ⟨decide_eq_true this.1, decide_eq_true this.2⟩
  | float =>
    dsimp only at h
    have : -floatMax b ≤ x ∧ x ≤ floatMax b := by
      simp only [floatMax]
      split at h
      · rename_i hb; rw [if_pos hb]; exact h
      · rename_i hb
        rw [if_neg hb]
        split at h
        · rename_i hb
          rw [if_pos hb]
          have e : ((2 : Rat) - 1 / 2 ^ 23) * 2 ^ 127 = (2 ^ 24 - 1) * 2 ^ 104 := by decide +kernel
          rw [e] at h; exact h
        · rename_i hb
          rw [if_neg hb]
          have e : ((2 : Rat) - 1 / 2 ^ 52) * 2 ^ 1023 = (2 ^ 53 - 1) * 2 ^ 971 := by decide +kernel
          rw [e] at h; exact h
    exact Bool.and_eq_true_iff.2 ⟨decide_eq_true this.1, decide_eq_true this.2⟩

theorem inRange_iff (p : PrimTy) (v : ConstVal) (hp : GoodPrim p) : inRange p v = true ↔ Allowed p v := by
  refine ⟨inRange_allowed p v hp, ?_⟩
  intro h
  cases v with
  | int n => exact inRange_number_of p n hp h
  | flt q => exact inRange_number_of p q hp h

/-! ## Lines -/

theorem castMode_begins (tokens : List Str) (m : Option Str) (s : Str) (rest : List Str) :
    castMode tokens = (m, s :: rest) ↔ ∃ begin, Begins begin m s ∧ tokens = begin ++ rest := by
  constructor
  · intro h
    cases tokens with
    | nil => injection h with h1 h2; cases h2
    | cons t ts =>
      simp only [castMode] at h
      split at h
      · rename_i hc
        injection h with h1 h2
        subst h1 h2
        exact ⟨[t, s], .cast t s hc, rfl⟩
      · rename_i hc
        injection h with h1 h2
        injection h2 with h2 h3
        subst h1 h2 h3
        exact ⟨[t], .none t (fun e => hc (.inl e)) (fun e => hc (.inr e)), rfl⟩
  · rintro ⟨begin, hb, rfl⟩
    cases hb with
    | cast c t hc => simp only [List.cons_append, castMode, if_pos hc, List.nil_append]
    | none t h1 h2 =>
      have : ¬ (s = lit "saturated" ∨ s = lit "truncated") := by rintro (h | h); exact h1 h; exact h2 h
      simp only [List.cons_append, castMode, if_neg this, List.nil_append]

theorem joinWith_writeLine (l : List Str) : joinWith (lit " ") l = writeLine l := by
  induction l with
  | nil => rfl
  | cons w ws ih =>
    cases ws with
    | nil => rfl
    | cons x xs =>
      rw [joinWith, writeLine, ih]
      · simp [lit]
      · simp
      · simp

theorem spells_prim {nested : Str → Except Err PTy} (hn : RefNames nested) {m : Option Str} {s : Str} {p : PrimTy}
    (h : Spells nested m s (.prim p)) : GoodPrim p := by
  generalize ht : PTy.prim p = t at h
  cases h with
  | void => cases ht
  | bool => injection ht with ht; subst ht; rfl
  | boolDigits => injection ht with ht; subst ht; rfl
  | uint m tr ds n _ _ h1 h2 => injection ht with ht; subst ht; exact ⟨h1, h2⟩
  | int m tr ds n _ _ h1 h2 => injection ht with ht; subst ht; exact ⟨h1, h2⟩
  | float m tr ds n _ _ h1 => injection ht with ht; subst ht; exact h1
  | array => cases ht
  | name s t _ h =>
    have := (hn _ _ h).2.2
    rw [← ht] at this
    cases this

/-- The item for an attribute. -/
def Attr.item : Attr → Item
  | .field f => .field f
  | .const c => .const c

/-- A line that is not a mark. -/
theorem parseLine_says (nested : Str → Except Err PTy) (hn : RefNames nested) (eval : Str → Option PyVal) (tokens : List Str)
    (ht : ∀ w ∈ tokens, IsToken w) (hs : ∀ x, tokens ≠ [lit "OVERRIDE_SIGNATURE", x]) (a : Attr) :
    parseLine nested eval tokens = .ok a → Says nested eval tokens a.item := by
  intro h
  unfold parseLine at h
  generalize hc : castMode tokens = cm at h
  obtain ⟨m, toks⟩ := cm
  dsimp only at h
  cases toks with
  | nil => cases h
  | cons s rest =>
    obtain ⟨begin, hb, rfl⟩ := (castMode_begins _ _ _ _).1 hc
    have hsp : ∀ c ∈ s, isSpace c = false := by
      have : s ∈ begin := by cases hb <;> simp
      exact fun c hc => ((ht s (by simp [this])).2 c hc).1
    cases rest with
    | nil =>
      obtain ⟨hv, h⟩ := enforce_bind h
      obtain ⟨t, ht', h⟩ := bind_ok h
      injection h with h
      subst h
      rw [List.isPrefixOf_iff_prefix] at hv
      obtain ⟨r, rfl⟩ := hv
      rw [List.append_nil]
      exact .padding begin m r t hb ((parseType_spells nested hn _ hsp m t).1 ht')
    | cons name rest =>
      obtain ⟨hv, h⟩ := enforce_bind h
      obtain ⟨t, ht', h⟩ := bind_ok h
      have hsp := (parseType_spells nested hn _ hsp m t).1 ht'
      rw [attributeNameOk_iff] at hv
      cases rest with
      | nil =>
        injection h with h
        subst h
        refine .field begin m s name t hb ?_ hsp hv
        rintro rfl
        exact hs name rfl
      | cons eq expr =>
        obtain ⟨he, h7⟩ := enforce_bind h
        clear h
        simp only [Bool.and_eq_true, decide_eq_true_eq, Bool.not_eq_true', List.isEmpty_eq_false_iff] at he
        obtain ⟨hne, rfl⟩ := he
        unfold makeConstant at h7
        cases t with
        | prim p =>
          dsimp only at h7
          have hex : (split (joinWith (lit " ") expr)).flatten = expr.flatten := by
            rw [joinWith_writeLine, split_writeLine expr (fun w hw => ht w (by simp [hw]))]
          rw [hex] at h7
          split at h7
          · cases h7
          · rename_i v hv'
            obtain ⟨x, hx, h⟩ := bind_ok h7
            obtain ⟨hr, h⟩ := enforce_bind h
            injection h with h
            subst h
            exact .const begin m s name p expr v x hb hsp hv hne hv' ((convertConst_iff _ _ _).1 hx)
              ((inRange_iff p x (spells_prim hn hsp)).1 hr)
        | void n => cases h7
        | array e d k => cases h7
        | compound n o u ns ts => cases h7

theorem parseLine_of_field (nested : Str → Except Err PTy) (eval : Str → Option PyVal) (begin : List Str) (m : Option Str) (s name : Str) (t : PTy)
    (hb : Begins begin m s) (ht : parseType nested s m = .ok t) (hname : AttributeName name) :
    parseLine nested eval (begin ++ [name]) = .ok (.field ⟨t, some name⟩) := by
  have hc := (castMode_begins (begin ++ [name]) m s [name]).2 ⟨begin, hb, rfl⟩
  simp only [parseLine, hc, (attributeNameOk_iff name).2 hname, ht]
  rfl

theorem parseLine_of_padding (nested : Str → Except Err PTy) (eval : Str → Option PyVal) (begin : List Str) (m : Option Str) (r : Str) (t : PTy)
    (hb : Begins begin m (lit "void" ++ r)) (ht : parseType nested (lit "void" ++ r) m = .ok t) :
    parseLine nested eval begin = .ok (.field ⟨t, none⟩) := by
  have hc := (castMode_begins begin m (lit "void" ++ r) []).2 ⟨begin, hb, by simp⟩
  have hp : (lit "void").isPrefixOf (lit "void" ++ r) = true := by
    rw [List.isPrefixOf_iff_prefix]; exact List.prefix_append _ _
  simp only [parseLine, hc, hp, ht]
  rfl

theorem parseLine_of_const (nested : Str → Except Err PTy) (eval : Str → Option PyVal) (begin : List Str) (m : Option Str) (s name : Str) (p : PrimTy)
    (expr : List Str) (v : PyVal) (x : ConstVal) (hb : Begins begin m s) (ht : parseType nested s m = .ok (.prim p)) (hname : AttributeName name)
    (hne : expr ≠ []) (htok : ∀ w ∈ expr, IsToken w) (hv : eval expr.flatten = some v) (hx : convertConst p.kind v = .ok x)
    (hr : inRange p x = true) :
    parseLine nested eval (begin ++ name :: lit "=" :: expr) = .ok (.const ⟨p, name, expr.flatten, x⟩) := by
  have hc := (castMode_begins (begin ++ name :: lit "=" :: expr) m s (name :: lit "=" :: expr)).2 ⟨begin, hb, rfl⟩
  have hex : (split (joinWith (lit " ") expr)).flatten = expr.flatten := by
    rw [joinWith_writeLine, split_writeLine expr htok]
  have he : expr.isEmpty = false := by cases expr with | nil => exact absurd rfl hne | cons a b => rfl
  simp only [parseLine, hc, (attributeNameOk_iff name).2 hname, ht, he, bind, Except.bind, enforce, makeConstant, hex, hv, hx, hr]
  rfl

/-! ## The state -/

/-- The state after an item. -/
def State.apply (s : State) : Item → Option State
  | .separator =>
    if s.response.isSome then none
    else some { s with
      response := some {}
      names := [] }
  | .union => if s.current.isUnion then none else some (s.setCurrent { s.current with isUnion := true })
  | .override n => some { s with override := some n }
  | .field f => (addAttr s (.field f)).toOption
  | .const c => (addAttr s (.const c)).toOption

def applyAll : List Item → State → Option State
  | [], s => some s
  | i :: is, s => (s.apply i).bind (applyAll is)

theorem toOption_ok {α : Type} {e : Except Err α} {x : α} : e.toOption = some x ↔ e = .ok x := by
  cases e <;> simp [Except.toOption]

theorem begins_special {begin : List Str} {m : Option Str} {s : Str} (hb : Begins begin m s) :
    ∃ a l, begin = a :: l ∧ (l = [] ∧ a = s ∧ m = none ∨ l = [s] ∧ (a = lit "saturated" ∨ a = lit "truncated")) := by
  cases hb with
  | cast c t hc => exact ⟨c, [s], rfl, .inr ⟨rfl, hc⟩⟩
  | none t _ _ => exact ⟨s, [], rfl, .inl ⟨rfl, rfl, rfl⟩⟩

theorem parseStatement_line (nested : Str → Except Err PTy) (eval : Str → Option PyVal) (s : State) (tokens : List Str)
    (h1 : tokens ≠ [lit "---"]) (h2 : tokens ≠ [lit "@union"]) (h3 : ∀ x, tokens ≠ [lit "OVERRIDE_SIGNATURE", x]) :
    parseStatement nested eval s tokens = (parseLine nested eval tokens).bind (addAttr s) := by
  unfold parseStatement
  rw [if_neg h1, if_neg h2]
  split
  · rename_i a b
    rw [if_neg]
    rintro rfl
    exact h3 b rfl
  · rfl

theorem parseStatement_iff (nested : Str → Except Err PTy) (hn : RefNames nested) (eval : Str → Option PyVal) (s s' : State) (tokens : List Str)
    (ht : ∀ w ∈ tokens, IsToken w) :
    parseStatement nested eval s tokens = .ok s' ↔ ∃ i, Says nested eval tokens i ∧ s.apply i = some s' := by
  have hsp : ∀ w ∈ tokens, ∀ c ∈ w, isSpace c = false := fun w hw c hc => ((ht w hw).2 c hc).1
  constructor
  · intro h
    by_cases h1 : tokens = [lit "---"]
    · subst h1
      refine ⟨_, .separator, ?_⟩
      simp only [parseStatement, if_true] at h
      simp only [State.apply]
      split at h
      · cases h
      · rename_i hr
        injection h with h
        rw [hr, ← h]
        rfl
    · by_cases h2 : tokens = [lit "@union"]
      · subst h2
        refine ⟨_, .union, ?_⟩
        simp only [parseStatement, if_neg h1, if_true] at h
        simp only [State.apply]
        split at h
        · cases h
        · rename_i hr
          injection h with h
          rw [if_neg hr, h]
      · by_cases h3 : ∃ x, tokens = [lit "OVERRIDE_SIGNATURE", x]
        · obtain ⟨x, rfl⟩ := h3
          simp only [parseStatement, if_neg h1, if_neg h2, if_true] at h
          split at h
          · rename_i n hx
            injection h with h
            refine ⟨.override n, .override x n ((int16_iff x (hsp x (by simp)) n).1 hx), ?_⟩
            rw [← h]
            rfl
          · cases h
        · have h3 : ∀ x, tokens ≠ [lit "OVERRIDE_SIGNATURE", x] := fun x e => h3 ⟨x, e⟩
          rw [parseStatement_line nested eval s tokens h1 h2 h3] at h
          obtain ⟨a, ha, h⟩ := bind_ok h
          refine ⟨a.item, parseLine_says nested hn eval tokens ht h3 a ha, ?_⟩
          cases a with
          | field f => exact toOption_ok.2 h
          | const c => exact toOption_ok.2 h
  · rintro ⟨i, hi, h⟩
    have hword : ∀ {begin : List Str} {m : Option Str} {x : Str}, Begins begin m x → (∀ w ∈ begin, w ∈ tokens) → ∀ c ∈ x, isSpace c = false := by
      intro begin m x hb hsub
      have : x ∈ begin := by cases hb <;> simp
      exact hsp x (hsub x this)
    cases hi with
    | separator =>
      simp only [State.apply] at h
      simp only [parseStatement, if_true]
      split at h
      · cases h
      · rename_i hr
        cases hr' : s.response with
        | some r => rw [hr'] at hr; exact absurd rfl hr
        | none =>
          injection h with h
          rw [← h]
    | union =>
      simp only [State.apply] at h
      have h1 : [lit "@union"] ≠ [lit "---"] := by decide
      simp only [parseStatement, if_neg h1, if_true]
      split at h
      · cases h
      · rename_i hr
        injection h with h
        rw [if_neg hr, h]
    | override x n hx =>
      have h1 : [lit "OVERRIDE_SIGNATURE", x] ≠ [lit "---"] := by simp
      have h2 : [lit "OVERRIDE_SIGNATURE", x] ≠ [lit "@union"] := by simp
      simp only [parseStatement, if_neg h1, if_neg h2, if_true, (int16_iff x (hsp x (by simp)) n).2 hx]
      injection h with h
      rw [← h]
    | padding _ m r t hb ht' =>
      have hl := parseLine_of_padding nested eval tokens m r t hb ((parseType_spells nested hn _ (hword hb (fun w hw => hw)) m t).2 ht')
      have h4 : addAttr s (.field ⟨t, none⟩) = .ok s' := toOption_ok.1 h
      obtain ⟨a, l, he, hc⟩ := begins_special hb
      rw [parseStatement_line nested eval s tokens, hl]
      · exact h4
      · rw [he]
        rcases hc with ⟨rfl, rfl, -⟩ | ⟨rfl, -⟩
        · intro e; injection e with e; cases e
        · simp
      · rw [he]
        rcases hc with ⟨rfl, rfl, -⟩ | ⟨rfl, -⟩
        · intro e; injection e with e; cases e
        · simp
      · rw [he]
        intro x
        rcases hc with ⟨rfl, rfl, -⟩ | ⟨rfl, hc⟩
        · simp
        · intro e
          injection e with e _
          rw [e] at hc
          revert hc
          decide
    | field begin m x name t hb hne ht' hname =>
      have hl := parseLine_of_field nested eval begin m x name t hb
        ((parseType_spells nested hn _ (hword hb (fun w hw => by simp [hw])) m t).2 ht') hname
      have h4 : addAttr s (.field ⟨t, some name⟩) = .ok s' := toOption_ok.1 h
      obtain ⟨a, l, he, hc⟩ := begins_special hb
      rw [parseStatement_line nested eval s, hl]
      · exact h4
      · rw [he]; simp
      · rw [he]; simp
      · intro y e
        rw [he] at e hne
        rcases hc with ⟨rfl, rfl, -⟩ | ⟨rfl, hc⟩
        · injection e with e _
          exact hne (by rw [e])
        · simp at e
    | const begin m x name p expr v y hb ht' hname hex hv hx hr =>
      have hl := parseLine_of_const nested eval begin m x name p expr v y hb
        ((parseType_spells nested hn _ (hword hb (fun w hw => by simp [hw])) m _).2 ht') hname hex (fun w hw => ht w (by simp [hw])) hv
        ((convertConst_iff _ _ _).2 hx) ((inRange_iff p y (spells_prim hn ht')).2 hr)
      have h4 : addAttr s (.const ⟨p, name, expr.flatten, y⟩) = .ok s' := toOption_ok.1 h
      obtain ⟨a, l, he, hc⟩ := begins_special hb
      have hlen : 4 ≤ (begin ++ name :: lit "=" :: expr).length := by
        rw [he]
        cases expr with
        | nil => exact absurd rfl hex
        | cons e es => simp only [List.length_append, List.length_cons]; omega
      rw [parseStatement_line nested eval s, hl]
      · exact h4
      · intro e; rw [e] at hlen; simp at hlen
      · intro e; rw [e] at hlen; simp at hlen
      · intro y e; rw [e] at hlen; simp at hlen

theorem parseStatements_iff (nested : Str → Except Err PTy) (hn : RefNames nested) (eval : Str → Option PyVal) (lines : List (List Str))
    (ht : ∀ l ∈ lines, ∀ w ∈ l, IsToken w) (s s' : State) :
    parseStatements nested eval lines s = .ok s' ↔ ∃ items, AllSay nested eval lines items ∧ applyAll items s = some s' := by
  induction lines generalizing s with
  | nil =>
    constructor
    · intro h
      injection h with h
      exact ⟨[], .nil, by rw [h]; rfl⟩
    · rintro ⟨items, ha, h⟩
      cases ha
      injection h with h
      rw [h]
      rfl
  | cons l ls ih =>
    have ih := fun s => ih (fun l hl => ht l (List.mem_cons_of_mem _ hl)) s
    constructor
    · intro h
      obtain ⟨s1, h1, h⟩ := bind_ok h
      obtain ⟨i, hi, h2⟩ := (parseStatement_iff nested hn eval s s1 l (ht l List.mem_cons_self)).1 h1
      obtain ⟨items, ha, h3⟩ := (ih s1).1 h
      refine ⟨i :: items, .cons _ _ _ _ hi ha, ?_⟩
      simp only [applyAll, h2, Option.bind_some, h3]
    · rintro ⟨items, ha, h⟩
      cases ha with
      | cons _ _ i is hi ha =>
        simp only [applyAll] at h
        obtain ⟨s1, h1, h⟩ := Option.bind_eq_some_iff.1 h
        have h2 := (parseStatement_iff nested hn eval s s1 l (ht l List.mem_cons_self)).2 ⟨i, hi, h1⟩
        simp only [parseStatements, h2]
        exact (ih s1).2 ⟨is, ha, h⟩

/-- The state after the items of one part. -/
def State.extend (s : State) (items : List Item) : State :=
  let t := s.setCurrent {
    fields := s.current.fields ++ items.filterMap Item.field?
    constants := s.current.constants ++ items.filterMap Item.const?
    isUnion := s.current.isUnion || items.any Item.isUnion }
  { t with
    names := (items.filterMap Item.name?).reverse ++ s.names
    override := ((items.filterMap Item.override?).getLast?).or s.override }

theorem State.extend_nil (s : State) : s.extend [] = s := by
  obtain ⟨n, b, r, o⟩ := s
  obtain ⟨bf, bc, bu⟩ := b
  cases r with
  | none => simp [State.extend, State.setCurrent, State.current]
  | some r => obtain ⟨rf, rc, ru⟩ := r; simp [State.extend, State.setCurrent, State.current]

theorem override_cons (i : Item) (is : List Item) (o : Option Int) :
    (((i :: is).filterMap Item.override?).getLast?).or o = ((is.filterMap Item.override?).getLast?).or (i.override?.or o) := by
  rw [List.filterMap_cons]
  cases i.override? with
  | none => rfl
  | some n =>
    dsimp only
    rw [List.getLast?_cons]
    cases (is.filterMap Item.override?).getLast? <;> rfl

theorem State.extend_cons (s : State) (i : Item) (is : List Item) : s.extend (i :: is) = (s.extend [i]).extend is := by
  obtain ⟨n, b, r, o⟩ := s
  have hf : (i :: is).filterMap Item.field? = [i].filterMap Item.field? ++ is.filterMap Item.field? := by
    rw [← List.filterMap_append]; rfl
  have hc : (i :: is).filterMap Item.const? = [i].filterMap Item.const? ++ is.filterMap Item.const? := by
    rw [← List.filterMap_append]; rfl
  have hn : (i :: is).filterMap Item.name? = [i].filterMap Item.name? ++ is.filterMap Item.name? := by
    rw [← List.filterMap_append]; rfl
  have ho : (([i].filterMap Item.override?).getLast?).or o = i.override?.or o := by
    rw [override_cons]; rfl
  have hu : (i :: is).any Item.isUnion = ([i].any Item.isUnion || is.any Item.isUnion) := by simp
  cases r with
  | none =>
    simp only [State.extend, State.setCurrent, State.current, Option.getD_none, override_cons i is, ho, hf, hc, hn, hu, List.reverse_append,
      List.append_assoc, Bool.or_assoc]
  | some r =>
    simp only [State.extend, State.setCurrent, State.current, Option.getD_some, override_cons i is, ho, hf, hc, hn, hu, List.reverse_append,
      List.append_assoc, Bool.or_assoc]

theorem apply_part (s s' : State) (i : Item) (hi : i.isSeparator = false) :
    s.apply i = some s' ↔ (s.current.isUnion = true → i.isUnion = false) ∧ (∀ n, i.name? = some n → n ∉ s.names) ∧ s.extend [i] = s' := by
  obtain ⟨ns, b, r, o⟩ := s
  obtain ⟨bf, bc, bu⟩ := b
  cases i with
  | separator => cases hi
  | union =>
    cases r with
    | none => cases bu <;> simp [State.apply, State.extend, State.setCurrent, State.current, Item.isUnion, Item.field?, Item.const?, Item.name?,
        Item.override?, List.filterMap_cons]
    | some r =>
      obtain ⟨rf, rc, ru⟩ := r
      cases ru <;> simp [State.apply, State.extend, State.setCurrent, State.current, Item.isUnion, Item.field?, Item.const?, Item.name?,
        Item.override?, List.filterMap_cons]
  | override n =>
    cases r with
    | none => simp [State.apply, State.extend, State.setCurrent, State.current, Item.isUnion, Item.field?, Item.const?, Item.name?,
        Item.override?, List.filterMap_cons]
    | some r => simp [State.apply, State.extend, State.setCurrent, State.current, Item.isUnion, Item.field?, Item.const?, Item.name?,
        Item.override?, List.filterMap_cons]
  | field f =>
    obtain ⟨t, name⟩ := f
    cases name with
    | none =>
      cases r with
      | none => simp [State.apply, addAttr, Except.toOption, State.extend, State.setCurrent, State.current, Item.isUnion, Item.field?, Item.const?,
          Item.name?, Item.override?, List.filterMap_cons]
      | some r => simp [State.apply, addAttr, Except.toOption, State.extend, State.setCurrent, State.current, Item.isUnion, Item.field?, Item.const?,
          Item.name?, Item.override?, List.filterMap_cons]
    | some n =>
      by_cases hn : n ∈ ns
      · simp [State.apply, addAttr, Except.toOption, Item.name?, hn, fail]
      · cases r with
        | none => simp [State.apply, addAttr, Except.toOption, State.extend, State.setCurrent, State.current, Item.isUnion, Item.field?, Item.const?,
            Item.name?, Item.override?, hn, List.filterMap_cons]
        | some r => simp [State.apply, addAttr, Except.toOption, State.extend, State.setCurrent, State.current, Item.isUnion, Item.field?,
            Item.const?, Item.name?, Item.override?, hn, List.filterMap_cons]
  | const c =>
    by_cases hn : c.name ∈ ns
    · simp [State.apply, addAttr, Except.toOption, Item.name?, hn, fail]
    · cases r with
      | none => simp [State.apply, addAttr, Except.toOption, State.extend, State.setCurrent, State.current, Item.isUnion, Item.field?, Item.const?,
          Item.name?, Item.override?, hn, List.filterMap_cons]
      | some r => simp [State.apply, addAttr, Except.toOption, State.extend, State.setCurrent, State.current, Item.isUnion, Item.field?,
          Item.const?, Item.name?, Item.override?, hn, List.filterMap_cons]

theorem extend_current_union (s : State) (items : List Item) :
    (s.extend items).current.isUnion = (s.current.isUnion || items.any Item.isUnion) := by
  obtain ⟨ns, b, r, o⟩ := s
  cases r <;> rfl

theorem applyAll_part (items : List Item) (hsep : items.any Item.isSeparator = false) (s s' : State) :
    applyAll items s = some s' ↔ items.countP Item.isUnion + (if s.current.isUnion then 1 else 0) ≤ max 1 (if s.current.isUnion then 1 else 0) ∧
      (items.filterMap Item.name?).Nodup ∧ (∀ n ∈ items.filterMap Item.name?, n ∉ s.names) ∧ s' = s.extend items := by
  induction items generalizing s with
  | nil =>
    rw [State.extend_nil]
    simp only [applyAll, Option.some.injEq, List.countP_nil, List.filterMap_nil, List.nodup_nil, true_and, List.not_mem_nil, false_implies,
      implies_true, eq_comm]
    refine (and_iff_right ?_).symm
    omega
  | cons i is ih =>
    rw [List.any_cons, Bool.or_eq_false_iff] at hsep
    have key : applyAll (i :: is) s = some s' ↔ ((s.current.isUnion = true → i.isUnion = false) ∧ (∀ n, i.name? = some n → n ∉ s.names)) ∧
        applyAll is (s.extend [i]) = some s' := by
      simp only [applyAll, Option.bind_eq_some_iff, apply_part _ _ _ hsep.1]
      constructor
      · rintro ⟨a, ⟨h1, h2, rfl⟩, h3⟩; exact ⟨⟨h1, h2⟩, h3⟩
      · rintro ⟨⟨h1, h2⟩, h3⟩; exact ⟨_, ⟨h1, h2, rfl⟩, h3⟩
    rw [key, ih hsep.2, extend_current_union, ← State.extend_cons]
    have hnames : (s.extend [i]).names = ([i].filterMap Item.name?).reverse ++ s.names := rfl
    rw [hnames]
    have e1 : ((s.current.isUnion = true → i.isUnion = false) ∧ (is.countP Item.isUnion + (if (s.current.isUnion || [i].any Item.isUnion) = true then 1 else 0)
        ≤ max 1 (if (s.current.isUnion || [i].any Item.isUnion) = true then 1 else 0))) ↔
        (i :: is).countP Item.isUnion + (if s.current.isUnion = true then 1 else 0) ≤ max 1 (if s.current.isUnion = true then 1 else 0) := by
      rw [List.countP_cons]
      cases s.current.isUnion <;> cases hi : i.isUnion <;> simp [hi] <;> omega
    have e2 : ((∀ n, i.name? = some n → n ∉ s.names) ∧ (is.filterMap Item.name?).Nodup ∧
        (∀ n ∈ is.filterMap Item.name?, n ∉ ([i].filterMap Item.name?).reverse ++ s.names)) ↔
        ((i :: is).filterMap Item.name?).Nodup ∧ (∀ n ∈ (i :: is).filterMap Item.name?, n ∉ s.names) := by
      rw [List.filterMap_cons]
      cases hi : i.name? with
      | none => simp [hi]
      | some x =>
        simp only [List.filterMap_cons, List.filterMap_nil, hi, List.reverse_cons, List.reverse_nil, List.nil_append, List.cons_append,
          List.mem_cons, List.nodup_cons, Option.some.injEq, forall_eq', not_or, forall_eq_or_imp]
        constructor
        · rintro ⟨h1, h2, h3⟩
          exact ⟨⟨fun hm => (h3 x hm).1 rfl, h2⟩, h1, fun n hn => (h3 n hn).2⟩
        · rintro ⟨⟨h1, h2⟩, h3, h4⟩
          exact ⟨h3, h2, fun n hn => ⟨fun e => h1 (e ▸ hn), h4 n hn⟩⟩
    rw [← e1]
    constructor
    · rintro ⟨⟨h1, h2⟩, h3, h4, h5, h6⟩
      obtain ⟨h7, h8⟩ := e2.1 ⟨h2, h4, h5⟩
      exact ⟨⟨h1, h3⟩, h7, h8, h6⟩
    · rintro ⟨⟨h1, h3⟩, h7, h8, h6⟩
      obtain ⟨h2, h4, h5⟩ := e2.2 ⟨h7, h8⟩
      exact ⟨⟨h1, h2⟩, h3, h4, h5, h6⟩

theorem apply_response (s s' : State) (i : Item) (hr : s.response.isSome = true) (h : s.apply i = some s') :
    i.isSeparator = false ∧ s'.response.isSome = true := by
  have hi : i.isSeparator = false := by
    cases i with
    | separator => simp only [State.apply, hr, if_true] at h; cases h
    | _ => rfl
  refine ⟨hi, ?_⟩
  obtain ⟨-, -, rfl⟩ := (apply_part s s' i hi).1 h
  obtain ⟨ns, b, r, o⟩ := s
  cases r with
  | none => cases hr
  | some r => rfl

theorem applyAll_response (items : List Item) (s s' : State) (hr : s.response.isSome = true) (h : applyAll items s = some s') :
    items.any Item.isSeparator = false := by
  induction items generalizing s with
  | nil => rfl
  | cons i is ih =>
    obtain ⟨s1, h1, h2⟩ := Option.bind_eq_some_iff.1 h
    obtain ⟨h3, h4⟩ := apply_response s s1 i hr h1
    rw [List.any_cons, h3, ih s1 h4 h2]
    rfl

theorem applyAll_append (a b : List Item) (s : State) : applyAll (a ++ b) s = (applyAll a s).bind (applyAll b) := by
  induction a generalizing s with
  | nil => rfl
  | cons i is ih =>
    simp only [List.cons_append, applyAll]
    cases s.apply i with
    | none => rfl
    | some s1 => exact ih s1

theorem first_separator (items : List Item) (h : items.any Item.isSeparator = true) :
    ∃ before after, before.any Item.isSeparator = false ∧ items = before ++ .separator :: after := by
  induction items with
  | nil => cases h
  | cons i is ih =>
    cases hi : i.isSeparator with
    | true =>
      refine ⟨[], is, rfl, ?_⟩
      cases i with
      | separator => rfl
      | _ => cases hi
    | false =>
      rw [List.any_cons, hi, Bool.false_or] at h
      obtain ⟨b, a, h1, h2⟩ := ih h
      exact ⟨i :: b, a, by rw [List.any_cons, hi, h1]; rfl, by rw [h2]; rfl⟩

theorem partSays_iff (items : List Item) (s : State) (hc : s.current = {}) (hn : s.names = []) (hsep : items.any Item.isSeparator = false) (s' : State) :
    applyAll items s = some s' ↔ PartSays items s'.current ∧ s' = s.extend items := by
  rw [applyAll_part items hsep, hc, hn]
  have hcur : (s.extend items).current = ⟨items.filterMap Item.field?, items.filterMap Item.const?, items.any Item.isUnion⟩ := by
    have : (s.extend items).current = ⟨s.current.fields ++ items.filterMap Item.field?, s.current.constants ++ items.filterMap Item.const?,
        s.current.isUnion || items.any Item.isUnion⟩ := by
      obtain ⟨ns, b, r, o⟩ := s
      cases r <;> rfl
    rw [this, hc]
    rfl
  constructor
  · rintro ⟨h1, h2, -, rfl⟩
    refine ⟨?_, rfl⟩
    rw [hcur]
    exact ⟨rfl, rfl, rfl, by simpa using h1, h2⟩
  · rintro ⟨h, rfl⟩
    exact ⟨by simpa using h.once, h.names, by simp, rfl⟩

theorem partSays_unique {items : List Item} {a b : Attrs} (h : PartSays items a) (h' : PartSays items b) : a = b := by
  obtain ⟨af, ac, au⟩ := a
  obtain ⟨bf, bc, bu⟩ := b
  have h1 := h.fields.trans h'.fields.symm
  have h2 := h.constants.trans h'.constants.symm
  have h3 := h.isUnion.trans h'.isUnion.symm
  dsimp only at h1 h2 h3
  rw [h1, h2, h3]

theorem extend_fresh (items : List Item) (a : Attrs) (h : PartSays items a) (s : State) (hc : s.current = {}) : (s.extend items).current = a := by
  have : (s.extend items).current = ⟨s.current.fields ++ items.filterMap Item.field?, s.current.constants ++ items.filterMap Item.const?,
      s.current.isUnion || items.any Item.isUnion⟩ := by
    obtain ⟨ns, b, r, o⟩ := s
    cases r <;> rfl
  rw [this, hc]
  obtain ⟨af, ac, au⟩ := a
  have h1 := h.fields
  have h2 := h.constants
  have h3 := h.isUnion
  dsimp only at h1 h2 h3
  rw [h1, h2, h3]
  rfl

/-- The final states of the loop. -/
theorem applyAll_parts (items : List Item) (b : Attrs) (r : Option Attrs) (o : Option Int) :
    (∃ s, applyAll items {} = some s ∧ s.body = b ∧ s.response = r ∧ s.override = o) ↔
      PartsSay items b r ∧ o = (items.filterMap Item.override?).getLast? := by
  constructor
  · rintro ⟨s, h, rfl, rfl, rfl⟩
    cases hs : items.any Item.isSeparator with
    | false =>
      obtain ⟨h1, rfl⟩ := (partSays_iff items {} rfl rfl hs s).1 h
      exact ⟨.message items _ hs h1, by simp [State.extend]⟩
    | true =>
      obtain ⟨before, after, hb, rfl⟩ := first_separator items hs
      rw [applyAll_append] at h
      obtain ⟨s1, h1, h2⟩ := Option.bind_eq_some_iff.1 h
      obtain ⟨p1, rfl⟩ := (partSays_iff before {} rfl rfl hb s1).1 h1
      obtain ⟨s2, h3, h4⟩ := Option.bind_eq_some_iff.1 h2
      have h3' : s2 = { State.extend {} before with
          response := some {}
          names := [] } := by
        injection h3 with h3
        exact h3.symm
      subst h3'
      have ha := applyAll_response after _ s rfl h4
      obtain ⟨p2, rfl⟩ := (partSays_iff after _ rfl rfl ha s).1 h4
      refine ⟨.service before after _ _ hb ha p1 p2, ?_⟩
      rw [List.filterMap_append, List.getLast?_append]
      simp [State.extend, State.setCurrent, Item.override?]
  · rintro ⟨h, rfl⟩
    cases h with
    | message _ _ hs hp =>
      have he := extend_fresh items b hp {} rfl
      refine ⟨State.extend {} items, (partSays_iff items {} rfl rfl hs _).2 ⟨he ▸ hp, rfl⟩, he, rfl, by simp [State.extend]⟩
    | service before after _ r hb ha p1 p2 =>
      have e1 := extend_fresh before b p1 {} rfl
      refine ⟨State.extend { State.extend {} before with
          response := some {}
          names := [] } after, ?_, e1, ?_, ?_⟩
      · rw [applyAll_append, (partSays_iff before {} rfl rfl hb _).2 ⟨e1 ▸ p1, rfl⟩]
        refine (partSays_iff after _ rfl rfl ha _).2 ⟨?_, rfl⟩
        rw [extend_fresh after r p2 _ rfl]
        exact p2
      · have := extend_fresh after r p2 { State.extend {} before with
          response := some {}
          names := [] } rfl
        exact congrArg some this
      · rw [List.filterMap_append, List.getLast?_append]
        simp [State.extend, State.setCurrent, Item.override?]

/-! ## Tokens -/

theorem splitAux_chars (cur s : Str) : ∀ w ∈ splitAux cur s, ∀ c ∈ w, c ∈ cur ∨ (c ∈ s ∧ isSpace c = false) := by
  induction s generalizing cur with
  | nil =>
    intro w hw c hc
    cases cur with
    | nil => cases hw
    | cons x xs =>
      rw [splitAux, List.mem_singleton] at hw
      · subst hw; exact .inl (List.mem_reverse.1 hc)
      · simp
  | cons x xs ih =>
    intro w hw c hc
    rw [splitAux] at hw
    split at hw
    · have tail : w ∈ splitAux [] xs → c ∈ cur ∨ (c ∈ x :: xs ∧ isSpace c = false) := by
        intro hw
        rcases ih [] w hw c hc with h | ⟨h1, h2⟩
        · cases h
        · exact .inr ⟨List.mem_cons_of_mem _ h1, h2⟩
      split at hw
      · exact tail hw
      · rcases List.mem_cons.1 hw with rfl | hw
        · exact .inl (List.mem_reverse.1 hc)
        · exact tail hw
    · rename_i hx
      rcases ih (x :: cur) w hw c hc with h | ⟨h1, h2⟩
      · rcases List.mem_cons.1 h with rfl | h
        · exact .inr ⟨List.mem_cons_self, by simpa using hx⟩
        · exact .inl h
      · exact .inr ⟨List.mem_cons_of_mem _ h1, h2⟩

theorem tokenize_tokens (text : Str) : ∀ l ∈ (tokenize text).map Prod.snd, ∀ w ∈ l, IsToken w := by
  intro l hl w hw
  rw [tokenize, tokenizeLines_snd, List.mem_flatMap] at hl
  obtain ⟨line, -, hl⟩ := hl
  unfold lineTokens flush at hl
  split at hl
  · cases hl
  · rw [List.mem_singleton] at hl
    subst hl
    refine ⟨splitAux_ne _ _ w hw, ?_⟩
    intro c hc
    rcases splitAux_chars [] _ w hw c hc with h | ⟨h1, h2⟩
    · cases h
    · exact ⟨h2, by simpa using mem_takeWhile h1⟩

/-! ## Theorems -/

theorem unionOk_iff (a : Attrs) : unionOk a = true ↔ UnionFine a := by
  unfold unionOk UnionFine
  have hv : ∀ t : PTy, t.isVoid = false ↔ ∀ n, t ≠ .void n := by
    intro t
    cases t <;> simp [PTy.isVoid]
  cases a.isUnion with
  | false => simp
  | true =>
    simp only [Bool.not_true, Bool.false_or, Bool.and_eq_true, decide_eq_true_eq, Bool.not_eq_true', List.any_eq_false, Bool.not_eq_true, hv,
      forall_const]
    exact Iff.rfl

theorem dtidOk_iff (r : Option Attrs) (o : Option Int) :
    dtidOk r.isSome o = true ↔ ∀ i, o = some i → 0 ≤ i ∧ i ≤ (if r = none then 65535 else 255) := by
  cases o with
  | none => simp [dtidOk]
  | some i => cases r <;> simp [dtidOk]

/-- Reading the text of a definition gives exactly the definition that its lines say. -/
theorem C85_source (nested : Str → Except Err PTy) (hn : RefNames nested) (eval : Str → Option PyVal)
    (info : Str × Option (Int × Int) × Option Int) (text : Str) (d : Def) :
    parseSource nested eval info text = .ok d ↔ SourceSays nested eval info ((tokenize text).map Prod.snd) d := by
  have htok := tokenize_tokens text
  constructor
  · intro h
    obtain ⟨s, hs, h⟩ := bind_ok h
    obtain ⟨hu, h⟩ := enforce_bind h
    obtain ⟨hd, h⟩ := enforce_bind h
    injection h with h
    subst h
    obtain ⟨items, ha, hs⟩ := (parseStatements_iff nested hn eval _ htok {} s).1 hs
    obtain ⟨hp, ho⟩ := (applyAll_parts items s.body s.response s.override).1 ⟨s, hs, rfl, rfl, rfl⟩
    rw [Bool.and_eq_true] at hu
    refine ⟨items, ha, hp, ho, rfl, rfl, rfl, (unionOk_iff _).1 hu.1, ?_, (dtidOk_iff _ _).1 hd⟩
    intro r hr
    have := hu.2
    dsimp only at hr this
    rw [hr] at this
    exact (unionOk_iff _).1 this
  · rintro ⟨items, ha, hp, ho, h1, h2, h3, hu, hr, hd⟩
    obtain ⟨s, hs, e1, e2, e3⟩ := (applyAll_parts items d.body d.response d.override).2 ⟨hp, ho⟩
    have hs := (parseStatements_iff nested hn eval _ htok {} s).2 ⟨items, ha, hs⟩
    obtain ⟨fn, v, dt, ov, b, r⟩ := d
    dsimp only at *
    subst h1 h2 h3 e1 e2 e3
    have c2 := (dtidOk_iff _ _).2 hd
    have c1 := (unionOk_iff _).2 hu
    simp only [parseSource, hs, bind, Except.bind, enforce, c1, Bool.true_and, c2, if_true]
    have c3 : ∀ r, s.response = some r → unionOk r = true := fun r e => (unionOk_iff r).2 (hr r e)
    cases hr' : s.response with
    | none => rfl
    | some r => simp only [c3 r hr', if_true]

theorem parseCompound_refNames (fs : FS) (eval : Str → Option PyVal) (dirs : List Str) (n : Nat) (filename : Str) :
    RefNames (parseCompound fs dirs (parse fs eval dirs n) filename) := by
  intro s t h
  obtain ⟨fn, d, h1, h2, h3, h4, h5, -⟩ := parseCompound_found fs eval dirs n filename s t h
  have hname : TypeName d.fullName := by
    exact (C75_accepted fs eval dirs n fn d h2).1
  obtain ⟨hplain, -, -⟩ := typeName_plain hname
  have hb : ∀ c ∈ d.fullName, c ≠ '[' := by
    rintro c hc rfl
    have := hplain _ hc
    revert this
    unfold Plain
    decide
  refine ⟨?_, ?_, ?_⟩
  · rintro rfl
    unfold referredName at h5
    rw [if_neg (by simp)] at h5
    cases hns : namespaceFromFilename dirs filename with
    | error e => rw [hns] at h5; cases h5
    | ok ns =>
      rw [hns] at h5
      injection h5 with h5
      obtain ⟨-, ks, short, -, -, ⟨c, cs, rfl, hc1, hc2⟩, he⟩ := hname
      rw [he] at h5
      dsimp only at h5
      have hl := congrArg List.getLast? h5
      rw [List.append_nil, List.getLast?_append, List.getLast?_append] at hl
      have hx : (c :: cs).getLast? = some ((c :: cs).getLast (by simp)) := List.getLast?_eq_some_getLast (by simp)
      rw [hx] at hl
      have hl : '.' = (c :: cs).getLast (by simp) := by
        have : (lit ".").getLast? = some '.' := rfl
        rw [this] at hl
        simpa using hl
      have hm := List.getLast_mem (l := c :: cs) (by simp)
      rw [← hl] at hm
      rcases List.mem_cons.1 hm with rfl | hm
      · revert hc1; unfold Upper; decide
      · have := hc2 _ hm
        revert this; unfold Lower Upper Digit; decide
  · intro c hc
    unfold referredName at h5
    split at h5
    · injection h5 with h5
      exact hb c (h5 ▸ hc)
    · cases hns : namespaceFromFilename dirs filename with
      | error e => rw [hns] at h5; cases h5
      | ok ns =>
        rw [hns] at h5
        injection h5 with h5
        exact hb c (by rw [← h5]; simp [hc])
  · rw [h4]; rfl

/-- Parsing a file gives exactly the definition that its name and its lines say, the references meaning what C81 says. -/
theorem C85_file (fs : FS) (eval : Str → Option PyVal) (dirs : List Str) (n : Nat) (filename : Str) (d : Def) :
    parse fs eval dirs (n + 1) filename = .ok d ↔ ∃ text info, fs.read filename = some text ∧ fileInfo dirs filename = .ok info ∧
      SourceSays (parseCompound fs dirs (parse fs eval dirs n) filename) eval info ((tokenize text).map Prod.snd) d := by
  simp only [parse]
  cases hr : fs.read filename with
  | none => simp [fail]
  | some text =>
    dsimp only
    constructor
    · intro h
      obtain ⟨info, hi, h⟩ := bind_ok h
      exact ⟨text, info, rfl, hi, (C85_source _ (parseCompound_refNames fs eval dirs n filename) eval info text d).1 h⟩
    · rintro ⟨text', info, ht, hi, h⟩
      injection ht with ht
      subst ht
      simp only [hi, bind, Except.bind]
      exact (C85_source _ (parseCompound_refNames fs eval dirs n filename) eval info text d).2 h

/-- The lines of a file say at most one definition. -/
theorem C85_unique (nested : Str → Except Err PTy) (hn : RefNames nested) (eval : Str → Option PyVal)
    (info : Str × Option (Int × Int) × Option Int) (text : Str) (d d' : Def)
    (h : SourceSays nested eval info ((tokenize text).map Prod.snd) d) (h' : SourceSays nested eval info ((tokenize text).map Prod.snd) d') :
    d = d' := by
  have e := (C85_source nested hn eval info text d).2 h
  rw [(C85_source nested hn eval info text d').2 h'] at e
  injection e with e
  exact e.symm

/-! ## Examples -/

/-- A service whose request has a constant and a field and whose response is a union. -/
def sampleText : Str := lit "uint8 A = 7 # seven\ntruncated int5[<=3] x\nOVERRIDE_SIGNATURE 0x1F\n---\n@union\nbool a\nfloat16[2] b\n"

def sampleDef : Def := ⟨lit "ns.A", some (1, 0), some 5, some 31,
  ⟨[⟨.array (.prim ⟨.signed, 5, true⟩) true 3, some (lit "x")⟩], [⟨⟨.unsigned, 8, false⟩, lit "A", lit "7", .int 7⟩], false⟩,
  some ⟨[⟨.prim ⟨.boolean, 1, false⟩, some (lit "a")⟩, ⟨.array (.prim ⟨.float, 16, false⟩) false 2, some (lit "b")⟩], [], true⟩⟩

example : SourceSays (fun _ => fail) (fun s => (int10 s).map PyVal.int) (lit "ns.A", some (1, 0), some 5)
    ((tokenize sampleText).map Prod.snd) sampleDef :=
  (C85_source _ (by intro s t h; cases h) _ _ _ _).1 rfl

/-- A repeated name is not allowed, whatever the types. -/
example (d : Def) : ¬ SourceSays (fun _ => fail) (fun s => (int10 s).map PyVal.int) (lit "ns.A", none, none)
    ((tokenize (lit "uint8 a\nint3 a")).map Prod.snd) d := by
  intro h
  have := (C85_source _ (by intro s t h; cases h) _ _ _ _).2 h
  cases this

example : HexLiteral (lit "-0x1F") (-31) := (int16_iff _ (by decide) _).1 (by decide)

end Parser
end Dronecan
