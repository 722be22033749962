import Verif.Props.WellFormed

/-!
# References between definitions (C81, C82)
-/

namespace Dronecan
namespace Parser

open Text

/-! ## More types found, more definitions accepted -/

/-- What one finds, the other finds too. -/
def Extends (nested nested' : Str → Except Err PTy) : Prop := ∀ s t, nested s = .ok t → nested' s = .ok t

theorem bind_mono {α β : Type} {m m' : Except Err α} {f f' : α → Except Err β} {x : β} (hm : ∀ a, m = .ok a → m' = .ok a)
    (hf : ∀ a, f a = .ok x → f' a = .ok x) (h : m.bind f = .ok x) : m'.bind f' = .ok x := by
  obtain ⟨a, h1, h2⟩ := bind_ok h
  rw [hm a h1]
  exact hf a h2

theorem enforce_mono {α : Type} {b : Bool} {f f' : Unit → Except Err α} {x : α} (hf : f () = .ok x → f' () = .ok x)
    (h : (enforce b).bind f = .ok x) : (enforce b).bind f' = .ok x := by
  obtain ⟨h1, h2⟩ := enforce_bind h
  rw [h1]
  exact hf h2

theorem parseTypeAux_mono {nested nested' : Str → Except Err PTy} (hn : Extends nested nested') (n : Nat) :
    ∀ (s : Str) (cast : Option Str) (t : PTy), parseTypeAux nested n s cast = .ok t → parseTypeAux nested' n s cast = .ok t := by
  induction n with
  | zero => intro s cast t h; cases h
  | succ n ih =>
    intro s cast t h
    simp only [parseTypeAux] at h ⊢
    split at h
    · exact h
    · split at h
      · exact bind_mono (fun a ha => ih _ _ _ ha) (fun a ha => ha) h
      · split at h
        · exact h
        · exact h
        · exact enforce_mono (fun ha => hn _ _ ha) h

theorem parseLine_mono {nested nested' : Str → Except Err PTy} (hn : Extends nested nested') (eval : Str → Option PyVal) (l : List Str)
    (a : Attr) (h : parseLine nested eval l = .ok a) : parseLine nested' eval l = .ok a := by
  unfold parseLine at h ⊢
  generalize castMode l = p at h ⊢
  obtain ⟨cast, tokens⟩ := p
  dsimp only at h ⊢
  split at h
  · exact h
  · exact enforce_mono (fun h => bind_mono (fun a ha => parseTypeAux_mono hn _ _ _ _ ha) (fun a ha => ha) h) h
  · exact enforce_mono (fun h => bind_mono (fun a ha => parseTypeAux_mono hn _ _ _ _ ha) (fun a ha => ha) h) h

theorem parseStatement_mono {nested nested' : Str → Except Err PTy} (hn : Extends nested nested') (eval : Str → Option PyVal) (l : List Str)
    (s s' : State) (h : parseStatement nested eval s l = .ok s') : parseStatement nested' eval s l = .ok s' := by
  have hline : (parseLine nested eval l).bind (addAttr s) = .ok s' → (parseLine nested' eval l).bind (addAttr s) = .ok s' :=
    fun h => bind_mono (fun a ha => parseLine_mono hn eval l a ha) (fun a ha => ha) h
  unfold parseStatement at h ⊢
  split at h
  · rename_i hc; rw [if_pos hc]; exact h
  · rename_i hc
    rw [if_neg hc]
    split at h
    · rename_i hc; rw [if_pos hc]; exact h
    · rename_i hc
      rw [if_neg hc]
      split at h
      · split at h
        · rename_i hc; rw [if_pos hc]; exact h
        · rename_i hc; rw [if_neg hc]; exact hline h
      · exact hline h

theorem parseStatements_mono {nested nested' : Str → Except Err PTy} (hn : Extends nested nested') (eval : Str → Option PyVal)
    (ls : List (List Str)) : ∀ (s s' : State), parseStatements nested eval ls s = .ok s' → parseStatements nested' eval ls s = .ok s' := by
  induction ls with
  | nil => intro s s' h; exact h
  | cons l ls ih => intro s s' h; exact bind_mono (fun a ha => parseStatement_mono hn eval l s a ha) (fun a ha => ih a s' ha) h

theorem parseSource_mono {nested nested' : Str → Except Err PTy} (hn : Extends nested nested') (eval : Str → Option PyVal)
    (info : Str × Option (Int × Int) × Option Int) (text : Str) (d : Def) (h : parseSource nested eval info text = .ok d) :
    parseSource nested' eval info text = .ok d :=
  bind_mono (fun a ha => parseStatements_mono hn eval _ _ a ha) (fun a ha => ha) h

theorem parseCompound_mono (fs : FS) (dirs : List Str) (p p' : Str → Except Err Def) (h : ∀ fn d, p fn = .ok d → p' fn = .ok d)
    (filename : Str) : Extends (parseCompound fs dirs p filename) (parseCompound fs dirs p' filename) := by
  intro s t hs
  exact bind_mono (fun a ha => ha) (fun a ha => bind_mono (fun x hx => h _ x hx) (fun x hx => hx) ha) hs

/-! ## Where structures come from -/

/-- The structure that a type is, or is an array of. -/
def PTy.structure? : PTy → Option PTy
  | .array e _ _ => PTy.structure? e
  | .compound name override isUnion names types => some (.compound name override isUnion names types)
  | _ => none

theorem parseTypeAux_structure (nested : Str → Except Err PTy) (hn : ∀ s t, nested s = .ok t → t.isCompound = true) (n : Nat) :
    ∀ (s : Str) (cast : Option Str) (t c : PTy), parseTypeAux nested n s cast = .ok t → t.structure? = some c → ∃ s', nested s' = .ok c := by
  induction n with
  | zero => intro s cast t c h; cases h
  | succ n ih =>
    intro s cast t c h hc
    simp only [parseTypeAux] at h
    split at h
    · split at h
      · obtain ⟨-, h⟩ := enforce_bind h
        injection h with h
        subst h
        cases hc
      · cases h
    · split at h
      · obtain ⟨e, he, h⟩ := bind_ok h
        obtain ⟨ha, h⟩ := enforce_bind h
        obtain ⟨⟨d, m⟩, hs, h⟩ := bind_ok h
        injection h with h
        subst h
        exact ih _ _ e c he hc
      · split at h
        · split at h
          · obtain ⟨p, rfl, hp⟩ := parsePrimitive_good _ _ _ _ h
            cases hc
          · cases h
        · obtain ⟨p, rfl, hp⟩ := parsePrimitive_good _ _ _ _ h
          cases hc
        · obtain ⟨-, h⟩ := enforce_bind h
          have hcomp := hn _ _ h
          refine ⟨_, h.trans ?_⟩
          cases t with
          | compound => injection hc with hc; rw [hc]
          | _ => cases hcomp

theorem parseLine_structure (nested : Str → Except Err PTy) (hn : ∀ s t, nested s = .ok t → t.isCompound = true)
    (eval : Str → Option PyVal) (l : List Str) (f : Field) (h : parseLine nested eval l = .ok (.field f)) (c : PTy)
    (hc : f.type.structure? = some c) : ∃ s', nested s' = .ok c := by
  unfold parseLine at h
  generalize castMode l = p at h
  obtain ⟨cast, tokens⟩ := p
  dsimp only at h
  split at h
  · cases h
  · obtain ⟨hv, h⟩ := enforce_bind h
    obtain ⟨t, ht, h⟩ := bind_ok h
    injection h with h
    injection h with h
    subst h
    exact parseTypeAux_structure nested hn _ _ _ _ c ht hc
  · obtain ⟨h1, h⟩ := enforce_bind h
    obtain ⟨t, ht, h⟩ := bind_ok h
    split at h
    · injection h with h
      injection h with h
      subst h
      exact parseTypeAux_structure nested hn _ _ _ _ c ht hc
    · obtain ⟨-, h⟩ := enforce_bind h
      unfold makeConstant at h
      split at h
      · dsimp only at h
        split at h
        · cases h
        · obtain ⟨v, -, h⟩ := bind_ok h
          obtain ⟨hr, h⟩ := enforce_bind h
          injection h with h
          cases h
      · cases h

theorem parse_info (fs : FS) (eval : Str → Option PyVal) (dirs : List Str) (n : Nat) (filename : Str) (d : Def)
    (h : parse fs eval dirs n filename = .ok d) : fileInfo dirs filename = .ok (d.fullName, d.version, d.defaultDtid) := by
  cases n with
  | zero => cases h
  | succ n =>
    simp only [parse] at h
    split at h
    · cases h
    · obtain ⟨info, hi, h⟩ := bind_ok h
      obtain ⟨s, hs, h⟩ := bind_ok h
      obtain ⟨-, h⟩ := enforce_bind h
      obtain ⟨-, h⟩ := enforce_bind h
      injection h with h
      subst h
      exact hi

/-- What is located: a file in the directory that the full name says, and the name of the file says the full name. -/
theorem locate_found (fs : FS) (dirs : List Str) (r s fn : Str) (h : locate fs dirs r s = .ok fn) :
    ∃ full i, referredName dirs r s = .ok full ∧ fileInfo dirs fn = .ok i ∧ i.1 = full ∧ fs.isfile fn = true ∧
      ∃ dir ∈ dirs, ∃ listing base, (splitOn '/' dir).getLastD [] = ((splitOn '.' full).dropLast).headD [] ∧
        fs.listdir (pathJoin dir ((splitOn '.' full).dropLast).tail) = some listing ∧ base ∈ listing ∧
        fn = pathJoin (pathJoin dir ((splitOn '.' full).dropLast).tail) [base] := by
  obtain ⟨full, hfull, h⟩ := bind_ok h
  dsimp only at h
  split at h
  · rename_i fn' hfind
    injection h with h
    subst h
    have hm := List.mem_of_find?_eq_some hfind
    have hp := List.find?_some hfind
    simp only [Bool.and_eq_true] at hp
    obtain ⟨hp1, hp2⟩ := hp
    split at hp2
    · rename_i i hi
      refine ⟨full, i, hfull, hi, by simpa using hp2, hp1, ?_⟩
      obtain ⟨d, hd, hm⟩ := List.mem_flatMap.1 hm
      obtain ⟨base, hb, rfl⟩ := List.mem_map.1 hm
      obtain ⟨dir, hdir, rfl⟩ := List.mem_map.1 hd
      obtain ⟨hdir, hcond⟩ := List.mem_filter.1 hdir
      cases hl : fs.listdir (pathJoin dir ((splitOn '.' full).dropLast).tail) with
      | none => rw [hl] at hb; cases hb
      | some listing =>
        rw [hl] at hb
        exact ⟨dir, hdir, listing, base, by simpa using hcond, hl, hb, rfl⟩
    · cases hp2
  · cases h

theorem referredName_dot {dirs : List Str} {r s full : Str} (h : referredName dirs r s = .ok full) : '.' ∈ full := by
  unfold referredName at h
  split at h
  · rename_i hc
    injection h with h
    subst h
    simpa using hc
  · cases hn : namespaceFromFilename dirs r with
    | error e => rw [hn] at h; cases h
    | ok ns =>
      rw [hn] at h
      injection h with h
      subst h
      simp [lit]

/-- A full name refers to the same from everywhere. -/
theorem locate_full (fs : FS) (dirs : List Str) (r r' s full : Str) (h : referredName dirs r s = .ok full) :
    locate fs dirs r' full = locate fs dirs r s := by
  have hdot := referredName_dot h
  have : referredName dirs r' full = .ok full := by
    unfold referredName
    rw [if_pos (by simpa using hdot)]
  simp only [locate, this, h]

/-- A structure found by a reference is the message defined in the file that is located, and the same as that found by its name. -/
theorem parseCompound_found (fs : FS) (eval : Str → Option PyVal) (dirs : List Str) (n : Nat) (r s : Str) (c : PTy)
    (h : parseCompound fs dirs (parse fs eval dirs n) r s = .ok c) :
    ∃ fn d, locate fs dirs r s = .ok fn ∧ parse fs eval dirs n fn = .ok d ∧ d.response = none ∧ c = d.asType ∧
      referredName dirs r s = .ok d.fullName ∧ ∀ r', parseCompound fs dirs (parse fs eval dirs n) r' d.fullName = .ok c := by
  have hall := h
  obtain ⟨fn, hl, h⟩ := bind_ok h
  obtain ⟨d, hd, h⟩ := bind_ok h
  split at h
  · cases h
  · rename_i hr
    injection h with h
    obtain ⟨full, i, hfull, hi, hname, -⟩ := locate_found fs dirs r s fn hl
    have := parse_info fs eval dirs n fn d hd
    rw [hi] at this
    injection this with this
    rw [this] at hname
    dsimp only at hname
    subst hname
    refine ⟨fn, d, hl, hd, hr, h.symm, hfull, ?_⟩
    intro r'
    have e := locate_full fs dirs r r' s d.fullName hfull
    rw [← hall]
    simp only [parseCompound, e]

/-! ## Theorems -/

/-- Every structure in an accepted definition is a message, not a service, defined in an accepted file that lies in the directory
that its name says, in one of the search directories, and whose file name says the name of the structure. -/
theorem C81_structures (fs : FS) (eval : Str → Option PyVal) (dirs : List Str) (n : Nat) (filename : Str) (d : Def)
    (h : parse fs eval dirs n filename = .ok d) (a : Attrs) (ha : a = d.body ∨ d.response = some a) (f : Field) (hf : f ∈ a.fields)
    (c : PTy) (hc : f.type.structure? = some c) :
    ∃ fn m d', n = m + 1 ∧ parse fs eval dirs m fn = .ok d' ∧ d'.response = none ∧ c = d'.asType ∧ fs.isfile fn = true ∧
      ∃ dir ∈ dirs, ∃ listing base, (splitOn '/' dir).getLastD [] = (splitOn '.' d'.fullName).headD [] ∧
        fs.listdir (pathJoin dir ((splitOn '.' d'.fullName).dropLast).tail) = some listing ∧ base ∈ listing ∧
        fn = pathJoin (pathJoin dir ((splitOn '.' d'.fullName).dropLast).tail) [base] := by
  cases n with
  | zero => cases h
  | succ n =>
    simp only [parse] at h
    split at h
    · cases h
    · obtain ⟨info, hi, h⟩ := bind_ok h
      have := parseSource_fields (fun f => ∀ c, f.type.structure? = some c → ∃ s, parseCompound fs dirs (parse fs eval dirs n) filename s = .ok c)
        _ eval (fun tokens f hf c hc => parseLine_structure _ (parseCompound_compound fs dirs _ filename) eval tokens f hf c hc) info _ d h
      have hs : ∃ s, parseCompound fs dirs (parse fs eval dirs n) filename s = .ok c := by
        rcases ha with rfl | ha
        · exact this.1 f hf c hc
        · exact this.2 a ha f hf c hc
      obtain ⟨s, hs⟩ := hs
      obtain ⟨fn, d', h1, h2, h3, h4, h5, -⟩ := parseCompound_found fs eval dirs n filename s c hs
      obtain ⟨full, i, g1, g2, g3, g4, dir, hdir, listing, base, g5, g6, g7, g8⟩ := locate_found fs dirs filename s fn h1
      rw [h5] at g1
      injection g1 with g1
      subst g1
      refine ⟨fn, n, d', rfl, h2, h3, h4, g4, dir, hdir, listing, base, ?_, g6, g7, g8⟩
      rw [g5]
      have hlen := splitOnAux_count '.' d'.fullName []
      have hpos : 0 < d'.fullName.count '.' := List.count_pos_iff.2 (referredName_dot h5)
      cases hsp : splitOn '.' d'.fullName with
      | nil => rfl
      | cons x xs =>
        cases xs with
        | nil =>
          rw [splitOn] at hsp
          rw [hsp] at hlen
          simp at hlen
          omega
        | cons y ys => rfl

/-- A reference with a dot means the type of this name, a reference without means the type of this name in the namespace of the
file. -/
theorem C81_reference (fs : FS) (eval : Str → Option PyVal) (dirs : List Str) (n : Nat) (filename s : Str) (c : PTy)
    (h : parseCompound fs dirs (parse fs eval dirs n) filename s = .ok c) : ∃ name ov u names types, c = .compound name ov u names types ∧
      ('.' ∈ s → name = s) ∧
      ('.' ∉ s → ∃ ns, namespaceFromFilename dirs filename = .ok ns ∧ name = ns ++ '.' :: s) := by
  obtain ⟨fn, d, -, -, -, h4, h5, -⟩ := parseCompound_found fs eval dirs n filename s c h
  refine ⟨d.fullName, _, _, _, _, h4, ?_, ?_⟩
  · intro hs
    unfold referredName at h5
    rw [if_pos (by simpa using hs)] at h5
    injection h5 with h5
    exact h5.symm
  · intro hs
    unfold referredName at h5
    rw [if_neg (by simpa using hs)] at h5
    cases hn : namespaceFromFilename dirs filename with
    | error e => rw [hn] at h5; cases h5
    | ok ns =>
      rw [hn] at h5
      injection h5 with h5
      exact ⟨ns, rfl, by rw [← h5]; simp [lit]⟩

/-- The result does not depend on the limit of the depth, if it is large enough. -/
theorem C82_depth (fs : FS) (eval : Str → Option PyVal) (dirs : List Str) (n m : Nat) (hnm : n ≤ m) (filename : Str) (d : Def)
    (h : parse fs eval dirs n filename = .ok d) : parse fs eval dirs m filename = .ok d := by
  have step : ∀ n filename d, parse fs eval dirs n filename = .ok d → parse fs eval dirs (n + 1) filename = .ok d := by
    intro n
    induction n with
    | zero => intro filename d h; cases h
    | succ n ih =>
      intro filename d h
      simp only [parse] at h
      simp only [parse.eq_2 fs eval dirs filename (n + 1)]
      split at h
      · cases h
      · rename_i text ht
        exact bind_mono (fun a ha => ha)
          (fun info hh => parseSource_mono (parseCompound_mono fs dirs _ _ (fun fn d hd => ih fn d hd) filename) eval info text d hh) h
  obtain ⟨k, rfl⟩ : ∃ k, m = n + k := ⟨m - n, by omega⟩
  clear hnm
  induction k with
  | zero => exact h
  | succ k ih => exact step _ _ _ ih

/-- A line that cannot be read without the type that a word refers to. -/
def Needs (line : List Str) (typedef : Str) : Prop :=
  ∀ (nested : Str → Except Err PTy) (eval : Str → Option PyVal) (s : State), (∀ t, nested typedef ≠ .ok t) →
    ∀ s', parseStatement nested eval s line ≠ .ok s'

/-- The first file refers to a type that is located in the second. -/
def Uses (fs : FS) (dirs : List Str) (a b : Str) : Prop :=
  ∃ text line typedef, fs.read a = some text ∧ line ∈ (tokenize text).map Prod.snd ∧ Needs line typedef ∧ locate fs dirs a typedef = .ok b

/-- A chain of such references. -/
inductive Chain (fs : FS) (dirs : List Str) : Str → Str → Prop where
  | one {a b : Str} : Uses fs dirs a b → Chain fs dirs a b
  | more {a b c : Str} : Uses fs dirs a b → Chain fs dirs b c → Chain fs dirs a c

theorem parseStatements_needs (nested : Str → Except Err PTy) (eval : Str → Option PyVal) (line : List Str) (typedef : Str)
    (hneed : Needs line typedef) (hno : ∀ t, nested typedef ≠ .ok t) (ls : List (List Str)) (hm : line ∈ ls) :
    ∀ s s', parseStatements nested eval ls s ≠ .ok s' := by
  induction ls with
  | nil => cases hm
  | cons l ls ih =>
    intro s s' h
    obtain ⟨s1, h1, h2⟩ := bind_ok h
    rcases List.mem_cons.1 hm with rfl | hm
    · exact hneed nested eval s hno s1 h1
    · exact ih hm s1 s' h2

/-- The files that an accepted file uses are accepted, with a smaller depth. -/
theorem uses_accepted (fs : FS) (eval : Str → Option PyVal) (dirs : List Str) (n : Nat) (a b : Str) (d : Def) (hu : Uses fs dirs a b)
    (h : parse fs eval dirs n a = .ok d) : ∃ m d', n = m + 1 ∧ parse fs eval dirs m b = .ok d' := by
  obtain ⟨text, line, typedef, ht, hm, hneed, hl⟩ := hu
  cases n with
  | zero => cases h
  | succ n =>
    simp only [parse, ht] at h
    obtain ⟨info, hi, h⟩ := bind_ok h
    obtain ⟨s, hs, h⟩ := bind_ok h
    cases hb : parse fs eval dirs n b with
    | ok d' => exact ⟨n, d', rfl, hb⟩
    | error e =>
      refine absurd hs (parseStatements_needs _ eval line typedef hneed ?_ _ hm _ _)
      intro t ht
      obtain ⟨fn, h1, h2⟩ := bind_ok ht
      rw [hl] at h1
      injection h1 with h1
      subst h1
      obtain ⟨d', h3, -⟩ := bind_ok h2
      rw [hb] at h3
      cases h3

/-- An accepted file does not use itself, directly or indirectly. -/
theorem C82_recursion (fs : FS) (eval : Str → Option PyVal) (dirs : List Str) (n : Nat) (a : Str) (d : Def)
    (h : parse fs eval dirs n a = .ok d) : ¬ Chain fs dirs a a := by
  have step : ∀ {x y : Str}, Chain fs dirs x y → ∀ n d, parse fs eval dirs n x = .ok d → ∃ m d', m < n ∧ parse fs eval dirs m y = .ok d' := by
    intro x y hc
    induction hc with
    | one hu =>
      intro n d h
      obtain ⟨m, d', h1, h2⟩ := uses_accepted fs eval dirs n _ _ d hu h
      exact ⟨m, d', by omega, h2⟩
    | more hu _ ih =>
      intro n d h
      obtain ⟨m, d', h1, h2⟩ := uses_accepted fs eval dirs n _ _ d hu h
      obtain ⟨k, d'', h3, h4⟩ := ih m d' h2
      exact ⟨k, d'', by omega, h4⟩
  intro hc
  induction n using Nat.strongRecOn generalizing d with
  | ind n ih =>
    obtain ⟨m, d', h1, h2⟩ := step hc n d h
    exact ih m h1 d' h2

end Parser
end Dronecan
