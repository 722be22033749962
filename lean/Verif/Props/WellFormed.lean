import Verif.Proofs.Strings
import Verif.Proofs.Prim
import Verif.Spec.Codec

/-!
# Accepted definitions are well formed (C75)
-/

namespace Dronecan
namespace Parser

open Text

/-! ## Specification -/

def Lower (c : Char) : Prop := 97 ≤ c.toNat ∧ c.toNat ≤ 122
def Upper (c : Char) : Prop := 65 ≤ c.toNat ∧ c.toNat ≤ 90
def Digit (c : Char) : Prop := 48 ≤ c.toNat ∧ c.toNat ≤ 57

/-- Letters, digits and underscores, beginning with a letter. -/
def AttributeName (s : Str) : Prop :=
  ∃ c cs, s = c :: cs ∧ (Lower c ∨ Upper c) ∧ ∀ x ∈ cs, Lower x ∨ Upper x ∨ Digit x ∨ x = '_'

/-- Lower case letters, digits and underscores, beginning with a letter. -/
def NamespaceName (s : Str) : Prop := ∃ c cs, s = c :: cs ∧ Lower c ∧ ∀ x ∈ cs, Lower x ∨ Digit x ∨ x = '_'

/-- Letters, digits and underscores, beginning with an upper case letter. -/
def ShortName (s : Str) : Prop := ∃ c cs, s = c :: cs ∧ Upper c ∧ ∀ x ∈ cs, Lower x ∨ Upper x ∨ Digit x ∨ x = '_'

/-- The components, followed by dots. -/
def dotted (ns : List Str) : Str := (ns.map (· ++ ['.'])).flatten

/-- A name of a type: at least one namespace, and a short name. -/
def TypeName (s : Str) : Prop :=
  s.length ≤ 80 ∧ ∃ ns short, ns ≠ [] ∧ (∀ n ∈ ns, NamespaceName n) ∧ ShortName short ∧ s = dotted ns ++ short

def GoodPrim (p : PrimTy) : Prop :=
  match p.kind with
  | .boolean => p.bitlen = 1
  | .unsigned => 2 ≤ p.bitlen ∧ p.bitlen ≤ 64
  | .signed => 2 ≤ p.bitlen ∧ p.bitlen ≤ 64
  | .float => p.bitlen = 16 ∨ p.bitlen = 32 ∨ p.bitlen = 64

/-- The widths and sizes are allowed, no array is an element of an array, the names of the fields of a structure are
distinct, unions have at least two fields and no padding; and so on for all structures inside. -/
inductive GoodType : PTy → Prop where
  | void (n : Nat) (h1 : 1 ≤ n) (h2 : n ≤ 64) : GoodType (.void n)
  | prim (p : PrimTy) (h : GoodPrim p) : GoodType (.prim p)
  | array (e : PTy) (dynamic : Bool) (m : Nat) (he : GoodType e) (ha : ∀ e' d' m', e ≠ .array e' d' m') (hm : 0 < m) :
      GoodType (.array e dynamic m)
  | compound (name : Str) (override : Option Int) (isUnion : Bool) (names : List (Option Str)) (types : List PTy)
      (hname : TypeName name) (hl : names.length = types.length) (hnd : (names.filterMap id).Nodup)
      (hn : ∀ n ∈ names.filterMap id, AttributeName n)
      (hu : isUnion = true → 2 ≤ types.length ∧ ∀ t ∈ types, ∀ n, t ≠ .void n)
      (ht : ∀ t ∈ types, GoodType t) : GoodType (.compound name override isUnion names types)

/-- The names in a part of a definition. -/
def Attrs.allNames (a : Attrs) : List Str := a.fields.filterMap Field.name ++ a.constants.map Const.name

/-- A part of a definition: the names of its fields and constants are distinct; constants are of primitive types. -/
def GoodAttrs (a : Attrs) : Prop :=
  a.allNames.Nodup ∧ (∀ n ∈ a.allNames, AttributeName n) ∧ (∀ f ∈ a.fields, GoodType f.type) ∧
    (∀ c ∈ a.constants, GoodPrim c.type) ∧
    (a.isUnion = true → 2 ≤ a.fields.length ∧ ∀ f ∈ a.fields, ∀ n, f.type ≠ .void n)

def GoodDef (d : Def) : Prop :=
  TypeName d.fullName ∧ GoodAttrs d.body ∧ (∀ r, d.response = some r → GoodAttrs r) ∧
    ∀ i, d.defaultDtid = some i → 0 ≤ i ∧ i < if d.response.isSome then 256 else 65536

mutual
/-- The type as it is serialized. -/
def PTy.wire : PTy → Ty
  | .void n => .void n
  | .prim p => .prim p
  | .array e dynamic m => .arr (PTy.wire e) dynamic m
  | .compound _ _ isUnion _ types => .comp isUnion (wires types)
def wires : List PTy → List Ty
  | [] => []
  | t :: ts => PTy.wire t :: wires ts
end

/-! ## Proofs -/

theorem enforce_bind {α : Type} {b : Bool} {f : Unit → Except Err α} {x : α} (h : (enforce b).bind f = .ok x) :
    b = true ∧ f () = .ok x := by
  unfold enforce at h
  cases b with
  | false => cases h
  | true => exact ⟨rfl, h⟩

theorem bind_ok {α β : Type} {m : Except Err α} {f : α → Except Err β} {x : β} (h : m.bind f = .ok x) :
    ∃ a, m = .ok a ∧ f a = .ok x := by
  cases m with
  | error e => cases h
  | ok a => exact ⟨a, rfl, h⟩

theorem isLower_iff (c : Char) : isLower c = true ↔ Lower c := by
  simp only [isLower, Lower, Bool.and_eq_true, decide_eq_true_eq]
  exact Iff.rfl

theorem isUpper_iff (c : Char) : isUpper c = true ↔ Upper c := by
  simp only [isUpper, Upper, Bool.and_eq_true, decide_eq_true_eq]
  exact Iff.rfl

theorem isDigit_iff (c : Char) : isDigit c = true ↔ Digit c := by
  simp only [isDigit, Digit, Bool.and_eq_true, decide_eq_true_eq]
  exact Iff.rfl

theorem attributeNameOk_iff (s : Str) : attributeNameOk s = true ↔ AttributeName s := by
  cases s with
  | nil => simp [attributeNameOk, AttributeName]
  | cons c cs =>
    have e : AttributeName (c :: cs) ↔ (Lower c ∨ Upper c) ∧ ∀ x ∈ cs, Lower x ∨ Upper x ∨ Digit x ∨ x = '_' :=
      ⟨fun ⟨_, _, h, h'⟩ => by cases h; exact h', fun h => ⟨c, cs, rfl, h⟩⟩
    rw [e]
    simp [attributeNameOk, isLower_iff, isUpper_iff, isDigit_iff, or_assoc]

theorem namespaceComponentOk_iff (s : Str) : namespaceComponentOk s = true ↔ NamespaceName s := by
  cases s with
  | nil => simp [namespaceComponentOk, NamespaceName]
  | cons c cs =>
    have e : NamespaceName (c :: cs) ↔ Lower c ∧ ∀ x ∈ cs, Lower x ∨ Digit x ∨ x = '_' :=
      ⟨fun ⟨_, _, h, h'⟩ => by cases h; exact h', fun h => ⟨c, cs, rfl, h⟩⟩
    rw [e]
    simp [namespaceComponentOk, isLower_iff, isDigit_iff, or_assoc]

theorem shortNameOk_iff (s : Str) : shortNameOk s = true ↔ ShortName s := by
  cases s with
  | nil => simp [shortNameOk, ShortName]
  | cons c cs =>
    have e : ShortName (c :: cs) ↔ Upper c ∧ ∀ x ∈ cs, Lower x ∨ Upper x ∨ Digit x ∨ x = '_' :=
      ⟨fun ⟨_, _, h, h'⟩ => by cases h; exact h', fun h => ⟨c, cs, rfl, h⟩⟩
    rw [e]
    simp [shortNameOk, isLower_iff, isUpper_iff, isDigit_iff, or_assoc]

theorem joinWith_dotted (ns : List Str) (short : Str) : joinWith (lit ".") (ns ++ [short]) = dotted ns ++ short := by
  induction ns with
  | nil => simp [joinWith, dotted]
  | cons n ns ih =>
    cases h : ns ++ [short] with
    | nil => simp at h
    | cons x xs =>
      rw [h] at ih
      rw [List.cons_append, h, joinWith, ih]
      · simp [dotted, lit]
      · simp

theorem fullNameOk_name (s : Str) (h : fullNameOk s = true) : TypeName s := by
  simp only [fullNameOk, Bool.and_eq_true, decide_eq_true_eq] at h
  obtain ⟨⟨⟨h1, h2⟩, h3⟩, h4⟩ := h
  have hne := splitOn_ne '.' s
  have hjoin := joinWith_splitOn '.' s
  have hno := splitOn_no_sep '.' s
  have hlen : (splitOn '.' s).length = s.count '.' + 1 := splitOnAux_count '.' s []
  have hpos : 0 < s.count '.' := List.count_pos_iff.2 (by simpa using h1)
  rw [← List.dropLast_concat_getLast hne] at hjoin
  rw [List.getLastD_eq_getLast?, List.getLast?_eq_some_getLast hne, Option.getD_some] at h3
  have hd : (splitOn '.' s).dropLast ≠ [] := by
    intro e
    have := congrArg List.length e
    simp only [List.length_dropLast, List.length_nil] at this
    omega
  have hsplit : splitOn '.' (joinWith (lit ".") (splitOn '.' s).dropLast) = (splitOn '.' s).dropLast :=
    splitOn_joinWith '.' _ hd (fun p hp => hno p (List.dropLast_subset _ hp))
  simp only [namespaceOk, hsplit, Bool.and_eq_true, List.all_eq_true] at h2
  refine ⟨h4, (splitOn '.' s).dropLast, (splitOn '.' s).getLast hne, hd, ?_, (shortNameOk_iff _).1 h3, ?_⟩
  · intro n hn
    exact (namespaceComponentOk_iff n).1 (h2.1 n hn)
  · rw [← joinWith_dotted]
    exact hjoin.symm

theorem parseVoid_good (b : Int) (t : PTy) (h : parseVoid b = .ok t) : GoodType t := by
  obtain ⟨h1, h2⟩ := enforce_bind h
  simp only [Bool.and_eq_true, decide_eq_true_eq] at h1
  injection h2 with h2
  subst h2
  exact .void _ (by omega) (by omega)

theorem parsePrimitive_good (base : Str) (b : Int) (cast : Option Str) (t : PTy) (h : parsePrimitive base b cast = .ok t) :
    ∃ p, t = .prim p ∧ GoodPrim p := by
  unfold parsePrimitive at h
  obtain ⟨tr, -, h⟩ := bind_ok h
  split at h
  · injection h with h; exact ⟨_, h.symm, rfl⟩
  · split at h
    · obtain ⟨h1, h2⟩ := enforce_bind h
      injection h2 with h2
      simp only [Bool.or_eq_true, decide_eq_true_eq] at h1
      refine ⟨_, h2.symm, ?_⟩
      show b.toNat = 16 ∨ b.toNat = 32 ∨ b.toNat = 64
      omega
    · split at h
      · obtain ⟨h1, h2⟩ := enforce_bind h
        injection h2 with h2
        simp only [Bool.and_eq_true, decide_eq_true_eq] at h1
        refine ⟨_, h2.symm, ?_⟩
        show 2 ≤ b.toNat ∧ b.toNat ≤ 64
        omega
      · split at h
        · obtain ⟨h1, h2⟩ := enforce_bind h
          injection h2 with h2
          simp only [Bool.and_eq_true, decide_eq_true_eq] at h1
          refine ⟨_, h2.symm, ?_⟩
          show 2 ≤ b.toNat ∧ b.toNat ≤ 64
          omega
        · cases h

theorem parseSize_pos (s : Str) (d : Bool) (m : Nat) (h : parseSize s = .ok (d, m)) : 0 < m := by
  unfold parseSize at h
  dsimp only at h
  split at h
  · cases h
  · split at h
    · injection h with h
      injection h with h1 h2
      omega
    · cases h

theorem parseTypeAux_good (nested : Str → Except Err PTy) (hn : ∀ s t, nested s = .ok t → GoodType t) (n : Nat) :
    ∀ (s : Str) (cast : Option Str) (t : PTy), parseTypeAux nested n s cast = .ok t → GoodType t := by
  induction n with
  | zero => intro s cast t h; cases h
  | succ n ih =>
    intro s cast t h
    simp only [parseTypeAux] at h
    split at h
    · split at h
      · exact parseVoid_good _ _ h
      · cases h
    · split at h
      · obtain ⟨e, he, h⟩ := bind_ok h
        obtain ⟨ha, h⟩ := enforce_bind h
        obtain ⟨⟨d, m⟩, hs, h⟩ := bind_ok h
        injection h with h
        subst h
        refine .array e d m (ih _ _ _ he) ?_ (parseSize_pos _ d m hs)
        intro e' d' m' heq
        subst heq
        cases ha
      · split at h
        · split at h
          · obtain ⟨p, rfl, hp⟩ := parsePrimitive_good _ _ _ _ h
            exact .prim p hp
          · cases h
        · obtain ⟨p, rfl, hp⟩ := parsePrimitive_good _ _ _ _ h
          exact .prim p hp
        · obtain ⟨-, h⟩ := enforce_bind h
          exact hn _ _ h

/-- What a line of a definition gives. -/
theorem parseLine_good (nested : Str → Except Err PTy) (hn : ∀ s t, nested s = .ok t → GoodType t) (eval : Str → Option PyVal)
    (tokens : List Str) (a : Attr) (h : parseLine nested eval tokens = .ok a) :
    (∃ f, a = .field f ∧ GoodType f.type ∧ ∀ n, f.name = some n → AttributeName n) ∨
    (∃ c, a = .const c ∧ GoodPrim c.type ∧ AttributeName c.name ∧ inRange c.type c.value = true) := by
  unfold parseLine at h
  generalize castMode tokens = p at h
  obtain ⟨cast, tokens⟩ := p
  dsimp only at h
  split at h
  · cases h
  · obtain ⟨-, h⟩ := enforce_bind h
    obtain ⟨t, ht, h⟩ := bind_ok h
    injection h with h
    subst h
    exact .inl ⟨_, rfl, parseTypeAux_good nested hn _ _ _ _ ht, fun n hn => by cases hn⟩
  · obtain ⟨h1, h⟩ := enforce_bind h
    obtain ⟨t, ht, h⟩ := bind_ok h
    rw [attributeNameOk_iff] at h1
    have ht := parseTypeAux_good nested hn _ _ _ _ ht
    split at h
    · injection h with h
      subst h
      exact .inl ⟨_, rfl, ht, fun n hn => by injection hn with hn; subst hn; exact h1⟩
    · obtain ⟨-, h⟩ := enforce_bind h
      right
      unfold makeConstant at h
      split at h
      · dsimp only at h
        split at h
        · cases h
        · obtain ⟨v, -, h⟩ := bind_ok h
          obtain ⟨hr, h⟩ := enforce_bind h
          injection h with h
          subst h
          refine ⟨_, rfl, ?_, h1, hr⟩
          cases ht
          assumption
      · cases h

/-- The loop keeps: both parts are as they should be, except for the checks made at the end; the names are those of the
part being read. -/
structure GoodState (s : State) : Prop where
  names : ∀ n, n ∈ s.names ↔ n ∈ s.current.allNames
  body : s.body.allNames.Nodup ∧ (∀ n ∈ s.body.allNames, AttributeName n) ∧ (∀ f ∈ s.body.fields, GoodType f.type) ∧
    (∀ c ∈ s.body.constants, GoodPrim c.type ∧ inRange c.type c.value = true)
  response : ∀ r, s.response = some r → r.allNames.Nodup ∧ (∀ n ∈ r.allNames, AttributeName n) ∧
    (∀ f ∈ r.fields, GoodType f.type) ∧ (∀ c ∈ r.constants, GoodPrim c.type ∧ inRange c.type c.value = true)

theorem empty_good : (Attrs.allNames {}).Nodup ∧ (∀ n ∈ Attrs.allNames {}, AttributeName n) ∧
    (∀ f ∈ ({} : Attrs).fields, GoodType f.type) ∧
    (∀ c ∈ ({} : Attrs).constants, GoodPrim c.type ∧ inRange c.type c.value = true) := by
  refine ⟨List.nodup_nil, ?_, ?_, ?_⟩ <;> (intro _ h; cases h)

theorem goodState_current {s : State} (h : GoodState s) :
    s.current.allNames.Nodup ∧ (∀ n ∈ s.current.allNames, AttributeName n) ∧ (∀ f ∈ s.current.fields, GoodType f.type) ∧
      (∀ c ∈ s.current.constants, GoodPrim c.type ∧ inRange c.type c.value = true) := by
  unfold State.current
  cases hr : s.response with
  | none => exact h.body
  | some r => exact h.response r hr

theorem goodState_set {s : State} (h : GoodState s) (a : Attrs) (names : List Str)
    (ha : a.allNames.Nodup ∧ (∀ n ∈ a.allNames, AttributeName n) ∧ (∀ f ∈ a.fields, GoodType f.type) ∧
      (∀ c ∈ a.constants, GoodPrim c.type ∧ inRange c.type c.value = true))
    (hn : ∀ n, n ∈ names ↔ n ∈ a.allNames) : GoodState { s.setCurrent a with names := names } := by
  obtain ⟨ns, body, resp, ov⟩ := s
  cases resp with
  | none => exact ⟨hn, ha, fun r hr => by cases hr⟩
  | some r => exact ⟨hn, h.body, fun r' hr => by cases hr; exact ha⟩

theorem addAttr_good {s s' : State} (h : GoodState s) (a : Attr)
    (ha : (∃ f, a = .field f ∧ GoodType f.type ∧ ∀ n, f.name = some n → AttributeName n) ∨
      (∃ c, a = .const c ∧ GoodPrim c.type ∧ AttributeName c.name ∧ inRange c.type c.value = true))
    (hs : addAttr s a = .ok s') : GoodState s' := by
  obtain ⟨c1, c2, c3, c4⟩ := goodState_current h
  have hnames := h.names
  unfold addAttr at hs
  rcases ha with ⟨f, rfl, hf, hfn⟩ | ⟨c, rfl, hp, hcn, hr⟩
  · dsimp only at hs
    split at hs
    · rename_i hnone
      injection hs with hs
      subst hs
      have hall : Attrs.allNames { s.current with fields := s.current.fields ++ [f] } = s.current.allNames := by
        simp [Attrs.allNames, hnone]
      have := goodState_set h { s.current with fields := s.current.fields ++ [f] } s.names
        ⟨by rw [hall]; exact c1, by rw [hall]; exact c2, by
          intro x hx
          rcases List.mem_append.1 hx with hx | hx
          · exact c3 x hx
          · rw [List.mem_singleton.1 hx]; exact hf, c4⟩ (by rw [hall]; exact hnames)
      have e : ({ s.setCurrent { s.current with fields := s.current.fields ++ [f] } with names := s.names } : State) =
          s.setCurrent { s.current with fields := s.current.fields ++ [f] } := by
        unfold State.setCurrent; split <;> rfl
      rwa [e] at this
    · rename_i n hsome
      split at hs
      · cases hs
      · rename_i hnew
        injection hs with hs
        subst hs
        have hnew : n ∉ s.current.allNames := fun hm => hnew (by simpa using (hnames n).2 hm)
        have hperm : (Attrs.allNames { s.current with fields := s.current.fields ++ [f] }).Perm (n :: s.current.allNames) := by
          simp only [Attrs.allNames, List.filterMap_append, List.filterMap_cons, hsome, List.filterMap_nil, List.append_assoc,
            List.singleton_append]
          exact List.perm_middle
        refine goodState_set h _ _ ⟨?_, ?_, ?_, c4⟩ ?_
        · rw [hperm.nodup_iff]; exact List.nodup_cons.2 ⟨hnew, c1⟩
        · intro x hx
          rcases List.mem_cons.1 (hperm.mem_iff.1 hx) with hx | hx
          · rw [hx]; exact hfn n hsome
          · exact c2 x hx
        · intro x hx
          rcases List.mem_append.1 hx with hx | hx
          · exact c3 x hx
          · rw [List.mem_singleton.1 hx]; exact hf
        · intro x
          rw [hperm.mem_iff, List.mem_cons, List.mem_cons, hnames]
  · dsimp only at hs
    split at hs
    · cases hs
    · rename_i hnew
      injection hs with hs
      subst hs
      have hnew : c.name ∉ s.current.allNames := fun hm => hnew (by simpa using (hnames _).2 hm)
      have hperm : (Attrs.allNames { s.current with constants := s.current.constants ++ [c] }).Perm (c.name :: s.current.allNames) := by
        simp only [Attrs.allNames, List.map_append, List.map_cons, List.map_nil]
        rw [← List.append_assoc]
        exact List.perm_append_singleton _ _
      refine goodState_set h _ _ ⟨?_, ?_, c3, ?_⟩ ?_
      · rw [hperm.nodup_iff]; exact List.nodup_cons.2 ⟨hnew, c1⟩
      · intro x hx
        rcases List.mem_cons.1 (hperm.mem_iff.1 hx) with hx | hx
        · rw [hx]; exact hcn
        · exact c2 x hx
      · intro x hx
        rcases List.mem_append.1 hx with hx | hx
        · exact c4 x hx
        · rw [List.mem_singleton.1 hx]; exact ⟨hp, hr⟩
      · intro x
        rw [hperm.mem_iff, List.mem_cons, List.mem_cons, hnames]

theorem parseStatement_good (nested : Str → Except Err PTy) (hn : ∀ s t, nested s = .ok t → GoodType t)
    (eval : Str → Option PyVal) {s s' : State} (h : GoodState s) (tokens : List Str)
    (hs : parseStatement nested eval s tokens = .ok s') : GoodState s' := by
  have hline : ∀ {x}, (parseLine nested eval tokens).bind (addAttr s) = .ok x → GoodState x := by
    intro x hx
    obtain ⟨a, h1, h2⟩ := bind_ok hx
    exact addAttr_good h a (parseLine_good nested hn eval tokens a h1) h2
  unfold parseStatement at hs
  split at hs
  · split at hs
    · cases hs
    · injection hs with hs
      subst hs
      refine ⟨fun n => Iff.rfl, h.body, ?_⟩
      intro r hr
      injection hr with hr
      subst hr
      exact empty_good
  · split at hs
    · split at hs
      · cases hs
      · injection hs with hs
        subst hs
        obtain ⟨c1, c2, c3, c4⟩ := goodState_current h
        have := goodState_set h { s.current with isUnion := true } s.names ⟨c1, c2, c3, c4⟩ h.names
        have e : ({ s.setCurrent { s.current with isUnion := true } with names := s.names } : State) =
            s.setCurrent { s.current with isUnion := true } := by
          unfold State.setCurrent; split <;> rfl
        rwa [e] at this
    · split at hs
      · split at hs
        · split at hs
          · injection hs with hs
            subst hs
            exact ⟨h.names, h.body, h.response⟩
          · cases hs
        · exact hline hs
      · exact hline hs

theorem parseStatements_good (nested : Str → Except Err PTy) (hn : ∀ s t, nested s = .ok t → GoodType t)
    (eval : Str → Option PyVal) (ls : List (List Str)) : ∀ {s s' : State}, GoodState s →
    parseStatements nested eval ls s = .ok s' → GoodState s' := by
  induction ls with
  | nil => intro s s' h hs; injection hs with hs; exact hs ▸ h
  | cons l ls ih =>
    intro s s' h hs
    obtain ⟨s1, h1, h2⟩ := bind_ok hs
    exact ih (parseStatement_good nested hn eval h l h1) h2

theorem unionOk_good {a : Attrs} (h : unionOk a = true) (hu : a.isUnion = true) :
    2 ≤ a.fields.length ∧ ∀ f ∈ a.fields, ∀ n, f.type ≠ .void n := by
  simp only [unionOk, hu, Bool.not_true, Bool.false_or, Bool.and_eq_true, decide_eq_true_eq, Bool.not_eq_true',
    List.any_eq_false] at h
  refine ⟨by omega, fun f hf n e => ?_⟩
  have := h.2 f hf
  rw [e] at this
  exact this rfl

/-- The definition, and what is known about the constants. -/
theorem parseSource_good (nested : Str → Except Err PTy) (hn : ∀ s t, nested s = .ok t → GoodType t) (eval : Str → Option PyVal)
    (info : Str × Option (Int × Int) × Option Int) (hinfo : TypeName info.1) (text : Str) (d : Def)
    (h : parseSource nested eval info text = .ok d) :
    GoodDef d ∧ (∀ c ∈ d.body.constants, inRange c.type c.value = true) ∧
      ∀ r, d.response = some r → ∀ c ∈ r.constants, inRange c.type c.value = true := by
  obtain ⟨s, hs, h⟩ := bind_ok h
  obtain ⟨hu, h⟩ := enforce_bind h
  obtain ⟨hd, h⟩ := enforce_bind h
  injection h with h
  subst h
  have hs := parseStatements_good nested hn eval _ ⟨fun n => Iff.rfl, empty_good, fun r hr => by cases hr⟩ hs
  simp only [Bool.and_eq_true] at hu
  obtain ⟨b1, b2, b3, b4⟩ := hs.body
  refine ⟨⟨hinfo, ⟨b1, b2, b3, fun c hc => (b4 c hc).1, unionOk_good hu.1⟩, ?_, ?_⟩, fun c hc => (b4 c hc).2, ?_⟩
  · intro r hr
    obtain ⟨r1, r2, r3, r4⟩ := hs.response r hr
    have hu2 := hu.2
    dsimp only at hr
    rw [hr] at hu2
    exact ⟨r1, r2, r3, fun c hc => (r4 c hc).1, unionOk_good hu2⟩
  · intro i hi
    dsimp only at hi hd ⊢
    rw [hi] at hd
    simp only [dtidOk, Bool.and_eq_true, decide_eq_true_eq] at hd
    refine ⟨hd.1, ?_⟩
    have := hd.2
    split at this
    · rename_i hh; rw [if_pos hh]; omega
    · rename_i hh; rw [if_neg hh]; omega
  · intro r hr c hc
    exact ((hs.response r hr).2.2.2 c hc).2

theorem fileInfo_good (dirs : List Str) (filename : Str) (i : Str × Option (Int × Int) × Option Int)
    (h : fileInfo dirs filename = .ok i) : TypeName i.1 := by
  obtain ⟨-, h⟩ := enforce_bind h
  obtain ⟨⟨dtid, name⟩, -, h⟩ := bind_ok h
  obtain ⟨v, -, h⟩ := bind_ok h
  obtain ⟨ns, -, h⟩ := bind_ok h
  obtain ⟨hf, h⟩ := enforce_bind h
  injection h with h
  subst h
  exact fullNameOk_name _ hf

theorem asType_good (d : Def) (h : GoodDef d) : GoodType d.asType := by
  obtain ⟨h1, ⟨h2, h3, h4, h5, h6⟩, -⟩ := h
  have hf : (d.body.fields.map Field.name).filterMap id = d.body.fields.filterMap Field.name := by
    simp [List.filterMap_map, Function.comp_def]
  refine .compound _ _ _ _ _ h1 (by simp) ?_ ?_ ?_ ?_
  · rw [hf]; exact (List.nodup_append.1 h2).1
  · rw [hf]; exact fun n hn => h3 n (List.mem_append_left _ hn)
  · intro hu
    obtain ⟨u1, u2⟩ := h6 hu
    refine ⟨by simpa using u1, ?_⟩
    intro t ht
    obtain ⟨f, hf, rfl⟩ := List.mem_map.1 ht
    exact u2 f hf
  · intro t ht
    obtain ⟨f, hf, rfl⟩ := List.mem_map.1 ht
    exact h4 f hf

theorem parse_good (fs : FS) (eval : Str → Option PyVal) (dirs : List Str) (n : Nat) : ∀ (filename : Str) (d : Def),
    parse fs eval dirs n filename = .ok d →
    GoodDef d ∧ (∀ c ∈ d.body.constants, inRange c.type c.value = true) ∧
      ∀ r, d.response = some r → ∀ c ∈ r.constants, inRange c.type c.value = true := by
  induction n with
  | zero => intro filename d h; cases h
  | succ n ih =>
    intro filename d h
    simp only [parse] at h
    split at h
    · cases h
    · obtain ⟨info, hi, h⟩ := bind_ok h
      refine parseSource_good _ ?_ eval info (fileInfo_good dirs filename info hi) _ d h
      intro s t hs
      obtain ⟨fn, -, hs⟩ := bind_ok hs
      obtain ⟨d', hd, hs⟩ := bind_ok hs
      split at hs
      · cases hs
      · injection hs with hs
        subst hs
        exact asType_good d' (ih fn d' hd).1

/-! ## Theorems -/

/-- Every definition that the parser accepts is well formed. -/
theorem C75_accepted (fs : FS) (eval : Str → Option PyVal) (dirs : List Str) (n : Nat) (filename : Str) (d : Def)
    (h : parse fs eval dirs n filename = .ok d) : GoodDef d := (parse_good fs eval dirs n filename d h).1

theorem WfTys_all (l : List Ty) (h : ∀ t ∈ l, WfTy t = true) : WfTys l = true := by
  induction l with
  | nil => rfl
  | cons t l ih =>
    rw [WfTys, h t List.mem_cons_self, ih (fun x hx => h x (List.mem_cons_of_mem _ hx))]; rfl

theorem wires_map (l : List PTy) : wires l = l.map PTy.wire := by
  induction l with
  | nil => rfl
  | cons t l ih => rw [wires, ih]; rfl

theorem wire_wf (t : PTy) (h : GoodType t) : WfTy t.wire = true := by
  induction h with
  | void n h1 h2 => simp only [PTy.wire, WfTy]; exact decide_eq_true (by omega)
  | prim p h =>
    simp only [PTy.wire, WfTy]
    apply decide_eq_true
    obtain ⟨k, b, t⟩ := p
    cases k <;> simp only [GoodPrim] at h <;> dsimp only <;> omega
  | array e d m he ha hm ih => simp only [PTy.wire, WfTy, ih, Bool.true_and]; exact decide_eq_true hm
  | compound name ov u names types hname hl hnd hn hu ht ih =>
    simp only [PTy.wire, WfTy, Bool.and_eq_true]
    refine ⟨WfTys_all _ ?_, ?_⟩
    · intro t ht
      rw [wires_map] at ht
      obtain ⟨x, hx, rfl⟩ := List.mem_map.1 ht
      exact ih x hx
    · cases u with
      | false => rfl
      | true => simpa [wires_map] using (hu rfl).1

/-- So the serialization theorems apply to the messages, requests and responses that are defined. -/
theorem C75_serializable (fs : FS) (eval : Str → Option PyVal) (dirs : List Str) (n : Nat) (filename : Str) (d : Def)
    (h : parse fs eval dirs n filename = .ok d) :
    WfTy (.comp d.body.isUnion (d.body.fields.map fun f => f.type.wire)) = true ∧
    ∀ r, d.response = some r → WfTy (.comp r.isUnion (r.fields.map fun f => f.type.wire)) = true := by
  have gen : ∀ a : Attrs, GoodAttrs a → WfTy (.comp a.isUnion (a.fields.map fun f => f.type.wire)) = true := by
    intro a ha
    simp only [WfTy, Bool.and_eq_true]
    refine ⟨WfTys_all _ ?_, ?_⟩
    · intro t ht
      obtain ⟨f, hf, rfl⟩ := List.mem_map.1 ht
      exact wire_wf _ (ha.2.2.1 f hf)
    · cases hu : a.isUnion with
      | false => rfl
      | true => simpa using (ha.2.2.2.2 hu).1
  obtain ⟨-, h1, h2, -⟩ := C75_accepted fs eval dirs n filename d h
  exact ⟨gen _ h1, fun r hr => gen r (h2 r hr)⟩

/-- Two files: a message, and a union that contains it. -/
def exampleFS : FS where
  read s :=
    if s = lit "/d/ns/A.uavcan" then some (lit "uint8 x # comment\nint54 K = 3\nvoid3\nbool[<=7] y")
    else if s = lit "/d/ns/sub/77.B.1.0.uavcan" then some (lit "@union\nns.A a\ntruncated float16[2] b\n")
    else none
  listdir s := if s = lit "/d/ns" then some [lit "A.uavcan", lit "sub"] else none
  isfile s := s = lit "/d/ns/A.uavcan" || s = lit "/d/ns/sub/77.B.1.0.uavcan"

/-- `eval` of the constants of the examples. -/
def exampleEval (s : Str) : Option PyVal :=
  if s = lit "3" then some (.int 3) else if s = lit "2**63" then some (.int (2 ^ 63)) else none

example : (match parse exampleFS exampleEval [lit "/d/ns"] 5 (lit "/d/ns/sub/77.B.1.0.uavcan") with
    | .ok d => d.fullName == lit "ns.sub.B" && d.defaultDtid == some 77 && d.body.isUnion &&
        d.body.fields.map Field.name == [some (lit "a"), some (lit "b")]
    | .error _ => false) = true := by decide +kernel

/-! ## What does not hold -/

/-- Every field that is not padding has a name, and the value of every constant is in the range of its type. -/
def C76_statement : Prop :=
  ∀ (fs : FS) (eval : Str → Option PyVal) (dirs : List Str) (n : Nat) (filename : Str) (d : Def),
    parse fs eval dirs n filename = .ok d →
    (∀ f ∈ d.body.fields, (∀ n, f.type ≠ .void n) → f.name ≠ none) ∧
    ∀ c ∈ d.body.constants, ∀ v, c.value = .int v → c.type.kind = .signed →
      -2 ^ (c.type.bitlen - 1) ≤ v ∧ v < 2 ^ (c.type.bitlen - 1)

/-- The file system with one file. -/
def oneFile (text : String) : FS where
  read s := if s = lit "/ns/A.uavcan" then some (lit text) else none
  listdir _ := none
  isfile _ := false

/-- False: a line with a type that begins with `void` needs no name, and an array of padding begins so. -/
theorem C76_name_counterexample : ¬ C76_statement := by
  intro h
  have h1 : (match parse (oneFile "void3[4]") exampleEval [lit "/ns"] 5 (lit "/ns/A.uavcan") with
    | .ok d => d.body.fields.any fun f => f.name.isNone && f.type.isArray
    | .error _ => false) = true := by decide +kernel
  generalize hp : parse (oneFile "void3[4]") exampleEval [lit "/ns"] 5 (lit "/ns/A.uavcan") = r at h1
  cases r with
  | error e => cases h1
  | ok d =>
    obtain ⟨f, hf, hx⟩ := List.any_eq_true.1 h1
    obtain ⟨hn, ha⟩ := Bool.and_eq_true_iff.1 hx
    exact (h _ _ _ _ _ _ hp).1 f hf (fun n e => by rw [e] at ha; cases ha) (Option.isNone_iff_eq_none.1 hn)

/-- False also for constants: the range of signed integers of more than 53 bits is one too large on both sides. -/
theorem C76_range_counterexample : ¬ C76_statement := by
  intro h
  have h1 : (match parse (oneFile "int64 BIG = 2**63") exampleEval [lit "/ns"] 5 (lit "/ns/A.uavcan") with
    | .ok d => d.body.constants.any fun c => c.type == ⟨.signed, 64, false⟩ && c.value == .int (2 ^ 63)
    | .error _ => false) = true := by decide +kernel
  generalize hp : parse (oneFile "int64 BIG = 2**63") exampleEval [lit "/ns"] 5 (lit "/ns/A.uavcan") = r at h1
  cases r with
  | error e => cases h1
  | ok d =>
    obtain ⟨c, hc, hx⟩ := List.any_eq_true.1 h1
    obtain ⟨ht, hv⟩ := Bool.and_eq_true_iff.1 hx
    have ht := eq_of_beq ht
    have hv := eq_of_beq hv
    have := (h _ _ _ _ _ _ hp).2 c hc _ hv (by rw [ht])
    rw [ht] at this
    exact absurd this.2 (by decide)

/-- What a line without a name can define. -/
inductive Unnamed : PTy → Prop where
  | void (n : Nat) : Unnamed (.void n)
  | voids (n : Nat) (dynamic : Bool) (m : Nat) : Unnamed (.array (.void n) dynamic m)
  | compound (name : Str) (override : Option Int) (isUnion : Bool) (names : List (Option Str)) (types : List PTy) :
      Unnamed (.compound name override isUnion names types)
  | compounds (name : Str) (override : Option Int) (isUnion : Bool) (names : List (Option Str)) (types : List PTy)
      (dynamic : Bool) (m : Nat) : Unnamed (.array (.compound name override isUnion names types) dynamic m)

/-! ### The names -/

theorem void_prefix (s : Str) : (lit "void").isPrefixOf s = true ↔ ∃ r, s = 'v' :: 'o' :: 'i' :: 'd' :: r := by
  rw [List.isPrefixOf_iff_prefix]
  exact ⟨fun ⟨r, h⟩ => ⟨r, h.symm⟩, fun ⟨r, h⟩ => ⟨r, h.symm⟩⟩

theorem strip_void (s : Str) (h : (lit "void").isPrefixOf s = true) : (lit "void").isPrefixOf (strip s) = true := by
  obtain ⟨r, rfl⟩ := (void_prefix s).1 h
  have h1 : List.dropWhile isSpace ('v' :: 'o' :: 'i' :: 'd' :: r) = 'v' :: 'o' :: 'i' :: 'd' :: r := by
    rw [List.dropWhile_cons, if_neg (by decide)]
  have h2 : ('v' :: 'o' :: 'i' :: 'd' :: r).reverse = r.reverse ++ ['d', 'i', 'o', 'v'] := by simp
  rw [void_prefix, strip, h1, h2, List.dropWhile_append]
  split
  · exact ⟨[], by decide⟩
  · exact ⟨((r.reverse.dropWhile isSpace)).reverse, by simp⟩

theorem arrayMatchAux_some (cs : Str) : ∀ (pre v size : Str), arrayMatchAux pre cs = some (v, size) →
    ∃ rest, pre.reverse ++ cs = v ++ '[' :: rest := by
  induction cs with
  | nil => intro pre v size h; cases h
  | cons c cs ih =>
    intro pre v size h
    simp only [arrayMatchAux] at h
    split at h
    · rename_i hc
      simp only [Bool.and_eq_true, decide_eq_true_eq] at hc
      injection h with h
      injection h with h1 h2
      exact ⟨cs, by rw [hc.1.1.1, h1]⟩
    · obtain ⟨rest, hr⟩ := ih _ _ _ h
      exact ⟨rest, by simpa using hr⟩

theorem arrayMatch_void (s v size : Str) (hs : (lit "void").isPrefixOf s = true) (h : arrayMatch s = some (v, size)) :
    (lit "void").isPrefixOf v = true := by
  obtain ⟨rest, hr⟩ := arrayMatchAux_some s [] v size h
  obtain ⟨r, rfl⟩ := (void_prefix s).1 hs
  rw [void_prefix]
  simp only [List.reverse_nil, List.nil_append] at hr
  match v, hr with
  | [], hr => cases hr
  | [_], hr => cases hr
  | [_, _], hr => cases hr
  | [_, _, _], hr => cases hr
  | a :: b :: c :: d :: v, hr =>
    simp only [List.cons_append, List.cons.injEq] at hr
    obtain ⟨rfl, rfl, rfl, rfl, -⟩ := hr
    exact ⟨v, rfl⟩

theorem primMatch_void (s base : Str) (ds : Option Str) (hs : (lit "void").isPrefixOf s = true)
    (h : primMatch s = some (base, ds)) : base ≠ lit "bool" ∧ base ≠ lit "float" ∧ base ≠ lit "uint" ∧ base ≠ lit "int" := by
  obtain ⟨r, rfl⟩ := (void_prefix s).1 hs
  have hb : ∃ b, base = 'v' :: b := by
    simp only [primMatch] at h
    split at h
    · injection h with h
      injection h with h1 h2
      rw [List.takeWhile_cons, if_pos (by decide)] at h1
      exact ⟨_, h1.symm⟩
    · split at h
      · rename_i hh; cases hh
      · cases h
  obtain ⟨b, rfl⟩ := hb
  refine ⟨?_, ?_, ?_, ?_⟩ <;> (intro h; cases h)

theorem parsePrimitive_void (base : Str) (b : Int) (cast : Option Str) (t : PTy)
    (h : base ≠ lit "bool" ∧ base ≠ lit "float" ∧ base ≠ lit "uint" ∧ base ≠ lit "int") : parsePrimitive base b cast ≠ .ok t := by
  intro hp
  unfold parsePrimitive at hp
  obtain ⟨tr, -, hp⟩ := bind_ok hp
  rw [if_neg h.1, if_neg h.2.1, if_neg h.2.2.1, if_neg h.2.2.2] at hp
  cases hp

def PTy.isCompound : PTy → Bool
  | .compound _ _ _ _ _ => true
  | _ => false

theorem parseTypeAux_void (nested : Str → Except Err PTy) (hn : ∀ s t, nested s = .ok t → t.isCompound = true) (n : Nat) :
    ∀ (s : Str) (cast : Option Str) (t : PTy), (lit "void").isPrefixOf s = true → parseTypeAux nested n s cast = .ok t →
    Unnamed t := by
  induction n with
  | zero => intro s cast t _ h; cases h
  | succ n ih =>
    intro s cast t hs h
    have hs := strip_void s hs
    simp only [parseTypeAux] at h
    split at h
    · split at h
      · obtain ⟨-, h⟩ := enforce_bind h
        injection h with h
        subst h
        exact .void _
      · cases h
    · split at h
      · rename_i v size hm
        obtain ⟨e, he, h⟩ := bind_ok h
        obtain ⟨ha, h⟩ := enforce_bind h
        obtain ⟨⟨d, m⟩, -, h⟩ := bind_ok h
        injection h with h
        subst h
        have := ih _ _ _ (strip_void _ (arrayMatch_void _ _ _ hs hm)) he
        cases this with
        | void n => exact .voids n d m
        | voids => cases ha
        | compound name ov u names types => exact .compounds name ov u names types d m
        | compounds => cases ha
      · split at h
        · rename_i base ds hm
          split at h
          · exact absurd h (parsePrimitive_void _ _ _ _ (primMatch_void _ _ _ hs hm))
          · cases h
        · rename_i base hm
          exact absurd h (parsePrimitive_void _ _ _ _ (primMatch_void _ _ _ hs hm))
        · obtain ⟨-, h⟩ := enforce_bind h
          have := hn _ _ h
          cases t with
          | compound name ov u names types => exact .compound name ov u names types
          | void => cases this
          | prim => cases this
          | array => cases this

theorem parseLine_unnamed (nested : Str → Except Err PTy) (hn : ∀ s t, nested s = .ok t → t.isCompound = true)
    (eval : Str → Option PyVal) (tokens : List Str) (f : Field) (h : parseLine nested eval tokens = .ok (.field f))
    (hf : f.name = none) : Unnamed f.type := by
  unfold parseLine at h
  generalize castMode tokens = p at h
  obtain ⟨cast, tokens⟩ := p
  dsimp only at h
  split at h
  · cases h
  · obtain ⟨hv, h⟩ := enforce_bind h
    obtain ⟨t, ht, h⟩ := bind_ok h
    injection h with h
    injection h with h
    subst h
    exact parseTypeAux_void nested hn _ _ _ _ hv ht
  · obtain ⟨h1, h⟩ := enforce_bind h
    obtain ⟨t, ht, h⟩ := bind_ok h
    split at h
    · injection h with h
      injection h with h
      subst h
      cases hf
    · obtain ⟨-, h⟩ := enforce_bind h
      unfold makeConstant at h
      split at h
      · dsimp only at h
        split at h
        · cases h
        · obtain ⟨v, -, h⟩ := bind_ok h
          obtain ⟨hr, h⟩ := enforce_bind h
          injection h with h
          cases h
      · cases h

/-- All fields read so far have a property. -/
def AllFields (P : Field → Prop) (s : State) : Prop :=
  (∀ f ∈ s.body.fields, P f) ∧ ∀ r, s.response = some r → ∀ f ∈ r.fields, P f

theorem allFields_set {P : Field → Prop} {s : State} (h : AllFields P s) (a : Attrs) (names : List Str) (ha : ∀ f ∈ a.fields, P f) :
    AllFields P (s.setCurrent a) ∧ AllFields P { s.setCurrent a with names := names } := by
  obtain ⟨ns, body, resp, ov⟩ := s
  cases resp with
  | none => exact ⟨⟨ha, fun r hr => by cases hr⟩, ⟨ha, fun r hr => by cases hr⟩⟩
  | some r => exact ⟨⟨h.1, fun r' hr => by cases hr; exact ha⟩, ⟨h.1, fun r' hr => by cases hr; exact ha⟩⟩

theorem allFields_current {P : Field → Prop} {s : State} (h : AllFields P s) : ∀ f ∈ s.current.fields, P f := by
  unfold State.current
  cases hr : s.response with
  | none => exact h.1
  | some r => exact h.2 r hr

theorem parseStatement_fields (P : Field → Prop) (nested : Str → Except Err PTy) (eval : Str → Option PyVal)
    (hP : ∀ tokens f, parseLine nested eval tokens = .ok (.field f) → P f) {s s' : State} (h : AllFields P s) (tokens : List Str)
    (hs : parseStatement nested eval s tokens = .ok s') : AllFields P s' := by
  have hcur := allFields_current h
  have hline : ∀ {x}, (parseLine nested eval tokens).bind (addAttr s) = .ok x → AllFields P x := by
    intro x hx
    obtain ⟨a, h1, h2⟩ := bind_ok hx
    cases a with
    | field f =>
      have hall : ∀ g ∈ s.current.fields ++ [f], P g := by
        intro g hg
        rcases List.mem_append.1 hg with hg | hg
        · exact hcur g hg
        · rw [List.mem_singleton.1 hg]
          exact hP tokens f h1
      simp only [addAttr] at h2
      split at h2
      · injection h2 with h2
        subst h2
        exact (allFields_set h _ [] hall).1
      · split at h2
        · cases h2
        · injection h2 with h2
          subst h2
          exact (allFields_set h _ _ hall).2
    | const c =>
      simp only [addAttr] at h2
      split at h2
      · cases h2
      · injection h2 with h2
        subst h2
        exact (allFields_set h { s.current with constants := s.current.constants ++ [c] } _ hcur).2
  unfold parseStatement at hs
  split at hs
  · split at hs
    · cases hs
    · injection hs with hs
      subst hs
      exact ⟨h.1, fun r hr => by cases hr; exact fun f hf => (by cases hf)⟩
  · split at hs
    · split at hs
      · cases hs
      · injection hs with hs
        subst hs
        exact (allFields_set h { s.current with isUnion := true } [] hcur).1
    · split at hs
      · split at hs
        · split at hs
          · injection hs with hs
            subst hs
            exact h
          · cases hs
        · exact hline hs
      · exact hline hs

theorem parseStatements_fields (P : Field → Prop) (nested : Str → Except Err PTy) (eval : Str → Option PyVal)
    (hP : ∀ tokens f, parseLine nested eval tokens = .ok (.field f) → P f) (ls : List (List Str)) : ∀ {s s' : State}, AllFields P s →
    parseStatements nested eval ls s = .ok s' → AllFields P s' := by
  induction ls with
  | nil => intro s s' h hs; injection hs with hs; exact hs ▸ h
  | cons l ls ih =>
    intro s s' h hs
    obtain ⟨s1, h1, h2⟩ := bind_ok hs
    exact ih (parseStatement_fields P nested eval hP h l h1) h2

/-- What holds of every field that a line can define holds of every field of the definition. -/
theorem parseSource_fields (P : Field → Prop) (nested : Str → Except Err PTy) (eval : Str → Option PyVal)
    (hP : ∀ tokens f, parseLine nested eval tokens = .ok (.field f) → P f) (info : Str × Option (Int × Int) × Option Int) (text : Str)
    (d : Def) (h : parseSource nested eval info text = .ok d) :
    (∀ f ∈ d.body.fields, P f) ∧ ∀ r, d.response = some r → ∀ f ∈ r.fields, P f := by
  obtain ⟨s, hs, h⟩ := bind_ok h
  obtain ⟨-, h⟩ := enforce_bind h
  obtain ⟨-, h⟩ := enforce_bind h
  injection h with h
  subst h
  exact parseStatements_fields P nested eval hP _ (s := {}) ⟨fun f hf => (by cases hf), fun r hr => by cases hr⟩ hs

theorem parseCompound_compound (fs : FS) (dirs : List Str) (parseFile : Str → Except Err Def) (filename s : Str) (t : PTy)
    (h : parseCompound fs dirs parseFile filename s = .ok t) : t.isCompound = true := by
  obtain ⟨fn, -, hs⟩ := bind_ok h
  obtain ⟨d', hd, hs⟩ := bind_ok hs
  split at hs
  · cases hs
  · injection hs with hs
    subst hs
    rfl

/-- True: a field that is a number or an array of numbers has a name. Only padding, arrays of padding, structures and
arrays of structures can be without; the latter in a namespace whose name begins with `void`. -/
theorem C76_names_partial (fs : FS) (eval : Str → Option PyVal) (dirs : List Str) (n : Nat) (filename : Str) (d : Def)
    (h : parse fs eval dirs n filename = .ok d) (a : Attrs) (ha : a = d.body ∨ d.response = some a) (f : Field)
    (hf : f ∈ a.fields) (hnone : f.name = none) : Unnamed f.type := by
  cases n with
  | zero => cases h
  | succ n =>
    simp only [parse] at h
    split at h
    · cases h
    · obtain ⟨info, hi, h⟩ := bind_ok h
      have := parseSource_fields (fun f => f.name = none → Unnamed f.type) _ eval
        (fun tokens f hf hn => parseLine_unnamed _ (parseCompound_compound fs dirs _ filename) eval tokens f hf hn) info _ d h
      rcases ha with rfl | ha
      · exact this.1 f hf hnone
      · exact this.2 a ha f hf hnone

/-! ### The constants -/

/-- The range of a type, as the parser sees it: signed integers of more than 53 bits can be too large or too small by
one. -/
def AllowedNumber (p : PrimTy) (x : Rat) : Prop :=
  match p.kind with
  | .boolean => 0 ≤ x ∧ x ≤ 1
  | .unsigned => 0 ≤ x ∧ x ≤ 2 ^ p.bitlen - 1
  | .signed =>
    if p.bitlen ≤ 53 then -2 ^ (p.bitlen - 1) ≤ x ∧ x ≤ 2 ^ (p.bitlen - 1) - 1
    else -2 ^ (p.bitlen - 1) - 1 ≤ x ∧ x ≤ 2 ^ (p.bitlen - 1)
  | .float =>
    if p.bitlen = 16 then -65504 ≤ x ∧ x ≤ 65504
    else if p.bitlen = 32 then -((2 - 1 / 2 ^ 23) * 2 ^ 127) ≤ x ∧ x ≤ (2 - 1 / 2 ^ 23) * 2 ^ 127
    else -((2 - 1 / 2 ^ 52) * 2 ^ 1023) ≤ x ∧ x ≤ (2 - 1 / 2 ^ 52) * 2 ^ 1023

def Allowed (p : PrimTy) : ConstVal → Prop
  | .int n => AllowedNumber p n
  | .flt q => AllowedNumber p q

theorem inRange_number (p : PrimTy) (x : Rat) (hp : GoodPrim p) (h : (match p.kind with
    | .float => decide (-(floatMax p.bitlen) ≤ x) && decide (x ≤ floatMax p.bitlen)
    | _ => decide (((valueRange p).1 : Rat) ≤ x) && decide (x ≤ ((valueRange p).2 : Rat))) = true) : AllowedNumber p x := by
  obtain ⟨k, b, tr⟩ := p
  unfold AllowedNumber
  dsimp only at h ⊢
  cases k with
  | boolean =>
    have h1 := Bool.and_eq_true_iff.1 h
    have h2 : ((0 : Int) : Rat) ≤ x := of_decide_eq_true h1.1
    have h3 : x ≤ ((2 ^ b - 1 : Int) : Rat) := of_decide_eq_true h1.2
    simp only [GoodPrim] at hp
    subst hp
    exact ⟨by simpa using h2, by simpa using h3⟩
  | unsigned =>
    have h1 := Bool.and_eq_true_iff.1 h
    have h2 : ((0 : Int) : Rat) ≤ x := of_decide_eq_true h1.1
    have h3 : x ≤ ((2 ^ b - 1 : Int) : Rat) := of_decide_eq_true h1.2
    refine ⟨by simpa using h2, ?_⟩
    push_cast at h3
    exact h3
  | signed =>
    have h1 := Bool.and_eq_true_iff.1 h
    simp only [GoodPrim] at hp
    have h2 : ((signedRange b).1 : Rat) ≤ x := of_decide_eq_true h1.1
    have h3 : x ≤ ((signedRange b).2 : Rat) := of_decide_eq_true h1.2
    dsimp only
    split
    · rename_i hb
      rw [signedRange_small b (by omega) hb] at h2 h3
      push_cast at h2 h3
      exact ⟨h2, h3⟩
    · rename_i hb
      rw [signedRange_large b (by omega) (by omega)] at h2 h3
      push_cast at h2 h3
      exact ⟨h2, h3⟩
  | float =>
    have h1 := Bool.and_eq_true_iff.1 h
    have h2 : -floatMax b ≤ x := of_decide_eq_true h1.1
    have h3 : x ≤ floatMax b := of_decide_eq_true h1.2
    simp only [floatMax] at h2 h3
    dsimp only
    split
    · rename_i hb; rw [if_pos hb] at h2 h3; exact ⟨h2, h3⟩
    · rename_i hb
      rw [if_neg hb] at h2 h3
      split
      · rename_i hb
        rw [if_pos hb] at h2 h3
        have e : ((2 : Rat) - 1 / 2 ^ 23) * 2 ^ 127 = (2 ^ 24 - 1) * 2 ^ 104 := by decide +kernel
        rw [e]; exact ⟨h2, h3⟩
      · rename_i hb
        rw [if_neg hb] at h2 h3
        have e : ((2 : Rat) - 1 / 2 ^ 52) * 2 ^ 1023 = (2 ^ 53 - 1) * 2 ^ 971 := by decide +kernel
        rw [e]; exact ⟨h2, h3⟩

theorem inRange_allowed (p : PrimTy) (v : ConstVal) (hp : GoodPrim p) (h : inRange p v = true) : Allowed p v := by
  cases v with
  | int n => exact inRange_number p n hp h
  | flt q => exact inRange_number p q hp h

/-- True: constants are in the range of their type, except that signed integers of 54 to 64 bits can be one beyond. -/
theorem C76_range_partial (fs : FS) (eval : Str → Option PyVal) (dirs : List Str) (n : Nat) (filename : Str) (d : Def)
    (h : parse fs eval dirs n filename = .ok d) (a : Attrs) (ha : a = d.body ∨ d.response = some a) (c : Const)
    (hc : c ∈ a.constants) : Allowed c.type c.value := by
  obtain ⟨⟨-, h1, h2, -⟩, h3, h4⟩ := parse_good fs eval dirs n filename d h
  rcases ha with rfl | ha
  · exact inRange_allowed _ _ (h1.2.2.2.1 c hc) (h3 c hc)
  · exact inRange_allowed _ _ ((h2 a ha).2.2.2.1 c hc) (h4 a ha c hc)

end Parser
end Dronecan
