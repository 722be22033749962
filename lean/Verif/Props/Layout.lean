import Verif.Props.Tokens
import Verif.Props.WellFormed

/-!
# Layout, constants and definitions (C77, C79)
-/

namespace Dronecan
namespace Parser

open Text

/-- The same files with the same content, up to comments, blank lines and blanks. -/
structure SameFiles (fs fs' : FS) : Prop where
  listdir : fs'.listdir = fs.listdir
  isfile : fs'.isfile = fs.isfile
  missing : ∀ f, fs.read f = none ↔ fs'.read f = none
  same : ∀ f t t', fs.read f = some t → fs'.read f = some t' → SameLayout t t'

theorem locate_same (fs fs' : FS) (h : SameFiles fs fs') (dirs : List Str) (r t : Str) : locate fs' dirs r t = locate fs dirs r t := by
  simp only [locate, h.listdir, h.isfile]

/-- Definitions do not depend on the layout of the files, those of nested types included: the same are accepted, with the same
result. -/
theorem C77_layout (fs fs' : FS) (h : SameFiles fs fs') (eval : Str → Option PyVal) (dirs : List Str) (n : Nat) :
    ∀ filename, parse fs eval dirs n filename = parse fs' eval dirs n filename := by
  induction n with
  | zero => intro filename; rfl
  | succ n ih =>
    intro filename
    simp only [parse]
    cases h1 : fs.read filename with
    | none => rw [(h.missing filename).1 h1]
    | some t =>
      cases h2 : fs'.read filename with
      | none => rw [(h.missing filename).2 h2] at h1; cases h1
      | some t' =>
        have ht := C57_layout t t' (h.same filename t t' h1 h2)
        have hc : parseCompound fs dirs (parse fs eval dirs n) = parseCompound fs' dirs (parse fs' eval dirs n) := by
          rw [show parse fs eval dirs n = parse fs' eval dirs n from funext ih]
          funext fn s
          simp only [parseCompound, locate_same fs fs' h]
        simp only [hc, parseSource, ht]

/-- Two file systems whose files differ in blanks. -/
example : SameFiles (oneFile "bool b") (oneFile "  bool b") where
  listdir := rfl
  isfile := rfl
  missing f := by
    show (if f = lit "/ns/A.uavcan" then some (lit "bool b") else none) = none ↔
      (if f = lit "/ns/A.uavcan" then some (lit "  bool b") else none) = none
    split <;> simp
  same f t t' h h' := by
    have h : (if f = lit "/ns/A.uavcan" then some (lit "bool b") else none) = some t := h
    have h' : (if f = lit "/ns/A.uavcan" then some (lit "  bool b") else none) = some t' := h'
    split at h
    · rename_i hf
      rw [if_pos hf] at h'
      injection h with h
      injection h' with h'
      subst h h'
      exact .add (.refl _) (.blanks [] (lit "  ") (lit "bool b") (by unfold Blanks; decide) (.inl rfl))
    · cases h

/-- The definition without its constants. -/
def Attrs.withoutConstants (a : Attrs) : Attrs := { a with constants := [] }

def Def.withoutConstants (d : Def) : Def :=
  { d with
    body := d.body.withoutConstants
    response := d.response.map Attrs.withoutConstants }

/-- A line that defines a constant. -/
def IsConstantLine (nested : Str → Except Err PTy) (eval : Str → Option PyVal) (line : List Str) : Prop :=
  ∃ c, parseLine nested eval line = .ok (.const c)

/-- The two sources have the same lines, apart from constants. -/
inductive SameButConstants (nested : Str → Except Err PTy) (eval : Str → Option PyVal) : List (List Str) → List (List Str) → Prop where
  | nil : SameButConstants nested eval [] []
  | both (l : List Str) {a b : List (List Str)} (h : SameButConstants nested eval a b) : SameButConstants nested eval (l :: a) (l :: b)
  | left (l : List Str) {a b : List (List Str)} (hl : IsConstantLine nested eval l) (h : SameButConstants nested eval a b) :
      SameButConstants nested eval (l :: a) b
  | right (l : List Str) {a b : List (List Str)} (hl : IsConstantLine nested eval l) (h : SameButConstants nested eval a b) :
      SameButConstants nested eval a (l :: b)

/-- What the loop has found, apart from constants. -/
def State.outline (s : State) : Attrs × Option Attrs × Option Int :=
  (s.body.withoutConstants, s.response.map Attrs.withoutConstants, s.override)

theorem outline_current {s s' : State} (h : s.outline = s'.outline) :
    s.current.withoutConstants = s'.current.withoutConstants := by
  obtain ⟨n, b, r, o⟩ := s
  obtain ⟨n', b', r', o'⟩ := s'
  simp only [State.outline, Prod.mk.injEq] at h
  obtain ⟨h1, h2, h3⟩ := h
  cases r with
  | none =>
    cases r' with
    | none => exact h1
    | some r' => cases h2
  | some r =>
    cases r' with
    | none => cases h2
    | some r' => exact Option.some.inj h2

theorem outline_set {s s' : State} (h : s.outline = s'.outline) (a a' : Attrs) (names names' : List Str)
    (ha : a.withoutConstants = a'.withoutConstants) :
    (s.setCurrent a).outline = (s'.setCurrent a').outline ∧
    State.outline { s.setCurrent a with names := names } = State.outline { s'.setCurrent a' with names := names' } := by
  obtain ⟨n, b, r, o⟩ := s
  obtain ⟨n', b', r', o'⟩ := s'
  simp only [State.outline, Prod.mk.injEq] at h
  obtain ⟨h1, h2, h3⟩ := h
  cases r with
  | none =>
    cases r' with
    | none => simp [State.setCurrent, State.outline, ha, h3]
    | some r' => cases h2
  | some r =>
    cases r' with
    | none => cases h2
    | some r' => simp [State.setCurrent, State.outline, ha, h1, h3]

theorem without_isUnion {a a' : Attrs} (h : a.withoutConstants = a'.withoutConstants) :
    a.isUnion = a'.isUnion ∧ a.fields = a'.fields := by
  obtain ⟨f, c, u⟩ := a
  obtain ⟨f', c', u'⟩ := a'
  simp only [Attrs.withoutConstants, Attrs.mk.injEq, true_and] at h
  exact ⟨h.2, h.1⟩

/-- The same statement from two states that differ in constants only, accepted in both. -/
theorem parseStatement_outline (nested : Str → Except Err PTy) (eval : Str → Option PyVal) {s s' t t' : State}
    (h : s.outline = s'.outline) (l : List Str) (h1 : parseStatement nested eval s l = .ok t)
    (h2 : parseStatement nested eval s' l = .ok t') : t.outline = t'.outline := by
  have hcur := outline_current h
  obtain ⟨hu, hf⟩ := without_isUnion hcur
  have hresp : s.response.isSome = s'.response.isSome := by
    have := congrArg (fun x => x.2.1) h
    simp only [State.outline] at this
    cases hr : s.response <;> cases hr' : s'.response <;> simp [hr, hr'] at this <;> rfl
  have hline : ∀ {x x'}, (parseLine nested eval l).bind (addAttr s) = .ok x →
      (parseLine nested eval l).bind (addAttr s') = .ok x' → x.outline = x'.outline := by
    intro x x' hx hx'
    obtain ⟨a, e1, e2⟩ := bind_ok hx
    obtain ⟨a', e1', e2'⟩ := bind_ok hx'
    rw [e1] at e1'
    injection e1' with e1'
    subst e1'
    cases a with
    | field f =>
      have hset : Attrs.withoutConstants { s.current with fields := s.current.fields ++ [f] } =
          Attrs.withoutConstants { s'.current with fields := s'.current.fields ++ [f] } := by
        simp only [Attrs.withoutConstants, hf, hu]
      simp only [addAttr] at e2 e2'
      split at e2
      · rename_i hn
        rw [hn] at e2'
        injection e2 with e2
        injection e2' with e2'
        subst e2 e2'
        exact (outline_set h _ _ [] [] hset).1
      · rename_i n hn
        rw [hn] at e2'
        dsimp only at e2'
        split at e2
        · cases e2
        · split at e2'
          · cases e2'
          · injection e2 with e2
            injection e2' with e2'
            subst e2 e2'
            exact (outline_set h _ _ _ _ hset).2
    | const c =>
      have hset : Attrs.withoutConstants { s.current with constants := s.current.constants ++ [c] } =
          Attrs.withoutConstants { s'.current with constants := s'.current.constants ++ [c] } := by
        simp only [Attrs.withoutConstants, hf, hu]
      simp only [addAttr] at e2 e2'
      split at e2
      · cases e2
      · split at e2'
        · cases e2'
        · injection e2 with e2
          injection e2' with e2'
          subst e2 e2'
          exact (outline_set h _ _ _ _ hset).2
  unfold parseStatement at h1 h2
  split at h1
  · rename_i hl
    rw [if_pos hl] at h2
    split at h1
    · cases h1
    · split at h2
      · cases h2
      · injection h1 with h1
        injection h2 with h2
        subst h1 h2
        simp only [State.outline, Prod.mk.injEq] at h ⊢
        exact ⟨h.1, trivial, h.2.2⟩
  · rename_i hl
    rw [if_neg hl] at h2
    split at h1
    · rename_i hl
      rw [if_pos hl] at h2
      split at h1
      · cases h1
      · split at h2
        · cases h2
        · injection h1 with h1
          injection h2 with h2
          subst h1 h2
          exact (outline_set h _ _ [] [] (by simp only [Attrs.withoutConstants, hf])).1
    · rename_i hl
      rw [if_neg hl] at h2
      split at h1
      · dsimp only at h2
        split at h1
        · rename_i ha
          rw [if_pos ha] at h2
          split at h1
          · rename_i heq
            rw [heq] at h2
            injection h1 with h1
            injection h2 with h2
            subst h1 h2
            simp only [State.outline, Prod.mk.injEq] at h ⊢
            exact ⟨h.1, h.2.1, trivial⟩
          · cases h1
        · rename_i ha
          rw [if_neg ha] at h2
          exact hline h1 h2
      · rename_i hno
        split at h2
        · exact (hno _ _ rfl).elim
        · exact hline h1 h2

/-- A line that defines a constant changes nothing else. -/
theorem parseStatement_constant (nested : Str → Except Err PTy) (eval : Str → Option PyVal) {s t : State}
    (l : List Str) (hl : IsConstantLine nested eval l) (h : parseStatement nested eval s l = .ok t) : t.outline = s.outline := by
  obtain ⟨c, hc⟩ := hl
  -- such a line has at least four words
  have hlen : 4 ≤ l.length := by
    unfold parseLine at hc
    have hp : (castMode l).2.length ≤ l.length := by
      cases l with
      | nil => simp [castMode]
      | cons t ts => simp only [castMode]; split <;> simp
    dsimp only at hc
    split at hc
    · cases hc
    · obtain ⟨-, hc⟩ := enforce_bind hc
      obtain ⟨t, -, hc⟩ := bind_ok hc
      injection hc with hc
      cases hc
    · rename_i heq
      rw [heq] at hp
      obtain ⟨-, hc⟩ := enforce_bind hc
      obtain ⟨t, -, hc⟩ := bind_ok hc
      split at hc
      · injection hc with hc
        cases hc
      · obtain ⟨he, -⟩ := enforce_bind hc
        have hne := (Bool.and_eq_true_iff.1 he).1
        simp only [Bool.not_eq_true', List.isEmpty_eq_false_iff] at hne
        have := List.length_pos_iff.2 hne
        simp only [List.length_cons] at hp
        omega
  have hadd : ∀ {x}, (parseLine nested eval l).bind (addAttr s) = .ok x → x.outline = s.outline := by
    intro x hx
    rw [hc] at hx
    replace hx : addAttr s (.const c) = .ok x := hx
    simp only [addAttr] at hx
    split at hx
    · cases hx
    · injection hx with hx
      subst hx
      have e : s.setCurrent s.current = s := by
        obtain ⟨n, b, r, o⟩ := s
        cases r <;> rfl
      have := (outline_set (s := s) (s' := s) rfl { s.current with constants := s.current.constants ++ [c] } s.current
        (c.name :: s.names) s.names rfl).2
      rw [this, e]
  unfold parseStatement at h
  split at h
  · rename_i e; rw [e] at hlen; simp at hlen
  · split at h
    · rename_i e; rw [e] at hlen; simp at hlen
    · split at h
      · simp at hlen
      · exact hadd h

theorem parseStatements_outline (nested : Str → Except Err PTy) (eval : Str → Option PyVal) {a b : List (List Str)}
    (hab : SameButConstants nested eval a b) : ∀ {s s' t t' : State}, s.outline = s'.outline →
    parseStatements nested eval a s = .ok t → parseStatements nested eval b s' = .ok t' → t.outline = t'.outline := by
  induction hab with
  | nil =>
    intro s s' t t' h h1 h2
    injection h1 with h1
    injection h2 with h2
    subst h1 h2
    exact h
  | both l hab ih =>
    intro s s' t t' h h1 h2
    obtain ⟨s1, e1, h1⟩ := bind_ok h1
    obtain ⟨s2, e2, h2⟩ := bind_ok h2
    exact ih (parseStatement_outline nested eval h l e1 e2) h1 h2
  | left l hl hab ih =>
    intro s s' t t' h h1 h2
    obtain ⟨s1, e1, h1⟩ := bind_ok h1
    exact ih ((parseStatement_constant nested eval l hl e1).trans h) h1 h2
  | right l hl hab ih =>
    intro s s' t t' h h1 h2
    obtain ⟨s2, e2, h2⟩ := bind_ok h2
    exact ih (h.trans (parseStatement_constant nested eval l hl e2).symm) h1 h2

/-- Two sources that differ in layout and in lines that define constants, both accepted, for the same file name: the fields, the
union marks and both signatures are the same. -/
theorem C79_constants (nested : Str → Except Err PTy) (eval : Str → Option PyVal)
    (info : Str × Option (Int × Int) × Option Int) (text text' : Str)
    (hsame : SameButConstants nested eval ((tokenize text).map Prod.snd) ((tokenize text').map Prod.snd))
    (d d' : Def) (h : parseSource nested eval info text = .ok d) (h' : parseSource nested eval info text' = .ok d') :
    d.withoutConstants = d'.withoutConstants ∧ d.dsdlSignature = d'.dsdlSignature ∧
      d.dataTypeSignature = d'.dataTypeSignature := by
  have hd : d.withoutConstants = d'.withoutConstants := by
    obtain ⟨s, hs, h⟩ := bind_ok h
    obtain ⟨-, h⟩ := enforce_bind h
    obtain ⟨-, h⟩ := enforce_bind h
    obtain ⟨s', hs', h'⟩ := bind_ok h'
    obtain ⟨-, h'⟩ := enforce_bind h'
    obtain ⟨-, h'⟩ := enforce_bind h'
    injection h with h
    injection h' with h'
    subst h h'
    have := parseStatements_outline nested eval hsame (s := {}) (s' := {}) rfl hs hs'
    simp only [State.outline, Prod.mk.injEq] at this
    simp only [Def.withoutConstants, this]
  have e1 : ∀ d : Def, d.dsdlSignature = d.withoutConstants.dsdlSignature := by
    intro d
    simp only [Def.dsdlSignature, Def.sourceText, Def.withoutConstants, Option.map_map]
    rfl
  have e2 : ∀ d : Def, d.dataTypeSignature = d.withoutConstants.dataTypeSignature := by
    intro d
    simp only [Def.dataTypeSignature, ← e1 d]
    obtain ⟨a1, a2, a3, a4, a5, a6⟩ := d
    cases a6 <;> rfl
  exact ⟨hd, by rw [e1 d, e1 d', hd], by rw [e2 d, e2 d', hd]⟩

example : SameButConstants (fun _ => fail) exampleEval ((tokenize (lit "uint8 x\nint8 K = 3 # three\n")).map Prod.snd)
    ((tokenize (lit "uint8 L = 3\n  uint8   x ")).map Prod.snd) :=
  .right _ ⟨⟨⟨.unsigned, 8, false⟩, lit "L", lit "3", .int 3⟩, rfl⟩
    (.both _ (.left _ ⟨⟨⟨.signed, 8, false⟩, lit "K", lit "3", .int 3⟩, rfl⟩ .nil))

end Parser
end Dronecan
