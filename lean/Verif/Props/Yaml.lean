import Verif.Proofs.YamlLeaf
import Verif.Props.Json

/-!
# C99: the representation of a value in YAML
-/

namespace Dronecan
namespace Display

open Text Introspect Float16 YamlSpec
open Parser hiding Const

/-- The text for every value is YAML that says what the value is. -/
def C99_statement : Prop :=
  ∀ (t : NTy) (v : Val), WfN t = true → hasTy t.ty v = true → t.isVoid = false → ∃ s tree, toYaml 0 none t v = .ok s ∧ read s = some tree ∧ Means yamlForm t v tree

/-! ## What is excluded -/

/-- The number of an item. -/
def code (p : PrimTy) : Val → Int
  | .prim bits => if p.kind = .signed then bitsInt bits else bitsNat bits
  | _ => 0

/-- A printable character of ASCII, a line feed, a carriage return or a tabulator. -/
def niceCode (c : Int) : Bool := decide ((32 ≤ c ∧ c ≤ 126) ∨ c = 10 ∨ c = 13 ∨ c = 9)

/-- A text of nice characters has single and no double quotes, or it has no single quotes, backslashes and control characters; if there are other numbers, the first of
them is not negative. -/
def clearText (cs : List Int) : Bool :=
  match cs.dropWhile niceCode with
  | [] => (decide (39 ∈ cs) && decide (34 ∉ cs)) || (decide (39 ∉ cs) && decide (92 ∉ cs) && decide (10 ∉ cs) && decide (13 ∉ cs) && decide (9 ∉ cs))
  | c :: _ => decide (0 ≤ c)

mutual
/-- All floats that are shown are finite and all texts are clear. -/
def clear : NTy → Val → Bool
  | .prim p, .prim bits => clearPrim p bits
  | .arr e dynamic _, .arr items =>
    (match e with
    | .prim p => !(dynamic && p.bitlen == 8) || clearText (items.map (code p))
    | _ => true) && items.all fun v => clear e v
  | .comp false _ _ fs, .comp _ vs => clearFields fs vs
  | .comp true _ _ fs, .comp active vs =>
    match active with
    | none => true
    | some i => clearNth i fs vs
  | _, _ => true
/-- In every field. -/
def clearFields : List NTy → List Val → Bool
  | f :: fs, v :: vs => clear f v && clearFields fs vs
  | _, _ => true
/-- In the field in position `i`. -/
def clearNth : Nat → List NTy → List Val → Bool
  | 0, f :: _, v :: _ => clear f v
  | i + 1, _ :: fs, _ :: vs => clearNth i fs vs
  | _, _, _ => true
end

/-! ## Arrays of primitive values -/

/-- A text on one line. -/
def Inline (s : Str) (tree : Tree) : Prop :=
  ∃ c cs, s = c :: cs ∧ '\n' ∉ s ∧ c ≠ ' ' ∧ c ≠ '#' ∧ YamlSpec.inline s = some tree ∧ itemOf s = none ∧ keyOf s = none

theorem Inline.follows {s : Str} {tree : Tree} (h : Inline s tree) (level : Nat) : Follows level s tree := by
  obtain ⟨c, cs, rfl, h1, h2, h3, h4, _, _⟩ := h
  exact follows_inline level c cs tree h1 h2 h3 h4

theorem Inline.read {s : Str} {tree : Tree} (h : Inline s tree) : YamlSpec.read s = some tree := by
  obtain ⟨c, cs, rfl, h1, h2, h3, h4, h5, h6⟩ := h
  exact read_inline c cs tree h1 h2 h3 h5 h6 h4

theorem niceCode_range (c : Int) (h : niceCode c = true) : 0 ≤ c ∧ c ≤ 126 := by
  simp only [niceCode, decide_eq_true_eq] at h
  omega

theorem allNice_codes (cs : List Int) (h : ∀ c ∈ cs, c < 256) :
    allNice (cs.map .int) = match cs.dropWhile niceCode with | [] => .ok true | c :: _ => if 0 ≤ c then .ok false else .error .valueError := by
  induction cs with
  | nil => rfl
  | cons c cs ih =>
    have hc := h c (by simp)
    simp only [List.map_cons, allNice, nice]
    rw [List.dropWhile_cons]
    by_cases h1 : 32 ≤ c ∧ c ≤ 126
    · rw [if_pos h1, if_pos (by simp only [niceCode, decide_eq_true_eq]; omega)]
      exact ih fun d hd => h d (by simp [hd])
    · rw [if_neg h1]
      by_cases h2 : c < 0
      · rw [if_pos (.inl h2), if_neg (by simp only [niceCode, decide_eq_true_eq]; omega)]
        simp only
        rw [if_neg (by omega)]
        rfl
      · rw [if_neg (by omega)]
        by_cases h3 : c = 10 ∨ c = 13 ∨ c = 9
        · rw [if_pos (by simp only [niceCode, decide_eq_true_eq]; omega), decide_eq_true h3]
          exact ih fun d hd => h d (by simp [hd])
        · rw [if_neg (by simp only [niceCode, decide_eq_true_eq]; omega), decide_eq_false h3]
          simp only
          rw [if_pos (by omega)]
          rfl

/-- The character with a number. -/
def charOf (c : Int) : Char := Char.ofNat c.toNat

theorem decodeText_codes (cs : List Int) : decodeText (cs.map .int) = cs.map charOf := by
  induction cs with
  | nil => rfl
  | cons c cs ih => simp only [List.map_cons, decodeText, ih, charOf]

theorem charOf_toNat (c : Int) (h : 0 ≤ c ∧ c ≤ 126) : (charOf c).toNat = c.toNat := by
  have : ∀ n : Fin 127, (Char.ofNat n).toNat = n.1 := by decide +kernel
  exact this ⟨c.toNat, by omega⟩

theorem charOf_mem (cs : List Int) (h : ∀ c ∈ cs, 0 ≤ c ∧ c ≤ 126) (d : Char) (n : Nat) (hd : d.toNat = n) : d ∈ cs.map charOf ↔ (n : Int) ∈ cs := by
  constructor
  · intro hm
    obtain ⟨c, hc, rfl⟩ := List.mem_map.1 hm
    rw [charOf_toNat c (h c hc)] at hd
    have := (h c hc).1
    rwa [show (n : Int) = c by omega]
  · intro hm
    refine List.mem_map.2 ⟨n, hm, ?_⟩
    rw [← hd]
    simp [charOf]

theorem quoteOk_codes (cs : List Int) (h : ∀ c ∈ cs, 0 ≤ c ∧ c ≤ 126) : QuoteOk (cs.map charOf) ↔
    ((39 : Int) ∈ cs ∧ (34 : Int) ∉ cs) ∨ ((39 : Int) ∉ cs ∧ (92 : Int) ∉ cs ∧ (10 : Int) ∉ cs ∧ (13 : Int) ∉ cs ∧ (9 : Int) ∉ cs) := by
  unfold QuoteOk
  rw [charOf_mem cs h '\'' 39 rfl, charOf_mem cs h '"' 34 rfl, charOf_mem cs h '\\' 92 rfl, charOf_mem cs h '\n' 10 rfl, charOf_mem cs h '\r' 13 rfl, charOf_mem cs h '\t' 9 rfl]
  rfl

theorem reprChar_line (q c : Char) (hq : q ≠ '\n') : '\n' ∉ reprChar q c := by
  unfold reprChar
  split
  · rename_i h
    intro hm
    simp at hm
    rcases h with h | h
    · exact hq (by rw [← h, hm])
    · rw [h] at hm; cases hm
  · split
    · decide
    · rename_i hn
      split
      · decide
      · split
        · decide
        · intro hm
          simp at hm
          exact hn hm.symm

theorem reprText_line (s : Str) : '\n' ∉ reprText s := by
  unfold reprText
  simp only
  split <;>
  · intro h
    simp only [List.mem_append, List.mem_singleton, List.mem_flatMap] at h
    rcases h with (h | ⟨c, _, h⟩) | h
    · cases h
    · exact reprChar_line _ c (by decide) h
    · cases h

theorem reprText_head (s : Str) : ∃ cs, reprText s = '\'' :: cs ∨ reprText s = '"' :: cs := by
  unfold reprText
  simp only
  split
  · exact ⟨_, .inr rfl⟩
  · exact ⟨_, .inl rfl⟩

/-- The items of an array of primitive values. -/
theorem items_means (p : PrimTy) (items : List Val) (hw : WfN (.prim p) = true) (hv : ∀ v ∈ items, hasTy (NTy.prim p).ty v = true) (hc : ∀ v ∈ items, clear (.prim p) v = true) :
    ∃ xs ts, items.mapM (itemValue p) = .ok xs ∧ xs.mapM (leafText p none) = .ok ts ∧ (∀ t ∈ ts, Leaf t) ∧
      Each (fun v y => Means yamlForm (.prim p) v y) items (ts.map resolve) ∧ ((p.kind = .signed ∨ p.kind = .unsigned) → xs = (items.map (code p)).map .int) := by
  induction items with
  | nil => exact ⟨[], [], rfl, rfl, by simp, .nil, fun _ => rfl⟩
  | cons v vs ih =>
    obtain ⟨xs, ts, h1, h2, h3, h4, h5⟩ := ih (fun x hx => hv x (by simp [hx])) (fun x hx => hc x (by simp [hx]))
    obtain ⟨bits, rfl, hb⟩ := prim_item p v (hv v (by simp))
    obtain ⟨x, hx, hm⟩ := itemValue_means p bits hw hb
    have hcl := hc (.prim bits) (by simp)
    simp only [clear] at hcl
    obtain ⟨s, tail, ht, hleaf, _, _, htail, hmp⟩ := leafText_means p bits x none (by intro g hg; cases hg) hw hb hm hcl
    rw [htail rfl, List.append_nil] at ht
    refine ⟨x :: xs, s :: ts, ?_, ?_, ?_, ?_, ?_⟩
    · rw [List.mapM_cons, hx, h1]; rfl
    · rw [List.mapM_cons, ht, h2]; rfl
    · intro t hmem
      rcases List.mem_cons.1 hmem with rfl | hmem
      · exact hleaf
      · exact h3 t hmem
    · exact .cons (by simp only [Means]; exact hmp) h4
    · intro hk
      rw [h5 hk]
      simp only [List.map_cons]
      congr 1
      unfold PyMeans at hm
      rcases hk with hk | hk <;> rw [hk] at hm <;> simp only at hm <;> simp [hm, code, hk]

theorem code_range (p : PrimTy) (bits : Bits) (h : bits.length = 8) : code p (.prim bits) < 256 ∧ (0 ≤ code p (.prim bits) → code p (.prim bits) = bitsNat bits) := by
  have hlt := bitsNat_lt bits
  rw [h] at hlt
  have hne : bits ≠ [] := by rintro rfl; simp at h
  simp only [code]
  split
  · rw [bitsInt_eq bits hne, h]
    split <;> omega
  · omega

theorem isChar_codes (p : PrimTy) (items : List Val) (hb : p.bitlen = 8) (hv : ∀ v ∈ items, hasTy (NTy.prim p).ty v = true) (hn : ∀ v ∈ items, niceCode (code p v) = true) :
    Each IsChar items ((items.map (code p)).map charOf) := by
  induction items with
  | nil => exact .nil
  | cons v vs ih =>
    obtain ⟨bits, rfl, hl⟩ := prim_item p v (hv v (by simp))
    have hr := niceCode_range _ (hn (.prim bits) (by simp))
    have hc := (code_range p bits (by omega)).2 hr.1
    refine .cons ⟨bits, rfl, ?_, ?_⟩ (ih (fun x hx => hv x (by simp [hx])) (fun x hx => hn x (by simp [hx])))
    · rw [charOf_toNat _ hr]; omega
    · rw [charOf_toNat _ hr]; omega

theorem inline_flow_all (ts : List Str) (h : ∀ t ∈ ts, Leaf t) : Inline (['['] ++ joinWith (lit ", ") ts ++ [']']) (.list (ts.map resolve)) := by
  refine ⟨'[', joinWith (lit ", ") ts ++ [']'], by simp, ?_, by decide, by decide, ?_, ?_, ?_⟩
  · intro hm
    simp only [List.mem_append, List.mem_singleton] at hm
    rcases hm with (hm | hm) | hm
    · cases hm
    · rcases join_chars ts h _ hm with hl | hl | hl
      · exact hl.ne_newline rfl
      · cases hl
      · cases hl
    · cases hm
  · exact inline_flow ts h
  · exact itemOf_other _ _ (by decide)
  · exact keyOf_other _ _ (by decide) (by decide)

/-- Arrays of primitive values are shown on one line. -/
theorem yaml_primArray (level : Nat) (note : Option Args) (p : PrimTy) (d : Bool) (m : Nat) (items : List Val) (hw : WfN (.prim p) = true)
    (hv : ∀ v ∈ items, hasTy (NTy.prim p).ty v = true) (hc : clear (.arr (.prim p) d m) (.arr items) = true) :
    ∃ s tree, toYaml level note (.arr (.prim p) d m) (.arr items) = .ok s ∧ Means yamlForm (.arr (.prim p) d m) (.arr items) tree ∧ Inline s tree := by
  simp only [clear, Bool.and_eq_true] at hc
  obtain ⟨xs, ts, h1, h2, h3, h4, h5⟩ := items_means p items hw hv (fun v hm => List.all_eq_true.1 hc.2 v hm)
  have hlist : Means yamlForm (.arr (.prim p) d m) (.arr items) (.list (ts.map resolve)) := by
    simp only [Means]
    exact .inl ⟨_, rfl, h4⟩
  have hinl := inline_flow_all ts h3
  have hbind : ∀ {α β : Type} (x : α) (f : α → Except Err β), (Except.ok x >>= f) = f x := fun _ _ => rfl
  simp only [toYaml, NTy.primOf, h1, h2, hbind]
  by_cases hs : stringLike p d = true
  · have hsl : d = true ∧ p.bitlen = 8 := by simpa [stringLike] using hs
    have hk : p.kind = .signed ∨ p.kind = .unsigned := by
      simp only [WfN, Bool.and_eq_true] at hw
      cases hkind : p.kind
      · rw [hkind] at hw; simp [hsl.2] at hw
      · exact .inr rfl
      · exact .inl rfl
      · rw [hkind] at hw; simp [hsl.2] at hw
    have hx := h5 hk
    have hct : clearText (items.map (code p)) = true := by simpa [hsl.1, hsl.2] using hc.1
    have hrange : ∀ c ∈ items.map (code p), c < 256 := by
      intro c hcm
      obtain ⟨v, hvm, rfl⟩ := List.mem_map.1 hcm
      obtain ⟨bits, rfl, hl⟩ := prim_item p v (hv v hvm)
      exact (code_range p bits (by omega)).1
    have hnice := allNice_codes _ hrange
    rw [← hx] at hnice
    unfold clearText at hct
    show ∃ s tree, (if stringLike p d = true then do
        let b ← allNice xs
        if b = true then pure (reprText (decodeText xs) ++ lit " # " ++ (['['] ++ joinWith (lit ", ") ts ++ [']'])) else pure (['['] ++ joinWith (lit ", ") ts ++ [']'])
      else pure (['['] ++ joinWith (lit ", ") ts ++ [']'])) = Except.ok s ∧ _
    rw [if_pos hs, hnice]
    cases hdw : (items.map (code p)).dropWhile niceCode with
    | cons c cs =>
      rw [hdw] at hct
      simp only [decide_eq_true_eq] at hct
      simp only
      rw [if_pos hct]
      exact ⟨_, _, rfl, hlist, hinl⟩
    | nil =>
      rw [hdw] at hct
      simp only at hct ⊢
      have hall := all_of_dropWhile_nil _ _ hdw
      have hdec : decodeText xs = (items.map (code p)).map charOf := by rw [hx, decodeText_codes]
      refine ⟨_, .str ((items.map (code p)).map charOf), rfl, ?_, ?_⟩
      · simp only [Means]
        refine .inr ⟨_, p, rfl, hsl.2, hsl.1, rfl, isChar_codes p items hsl.2 hv ?_⟩
        intro v hvm
        exact hall _ (List.mem_map_of_mem hvm)
      · have hq : QuoteOk ((items.map (code p)).map charOf) := by
          rw [quoteOk_codes _ (fun c hcm => niceCode_range c (hall c hcm))]
          simpa [Bool.or_eq_true, Bool.and_eq_true, decide_eq_true_eq, and_assoc] using hct
        have hnote : Note (lit " # " ++ (['['] ++ joinWith (lit ", ") ts ++ [']'])) := .inr ⟨' ' :: (['['] ++ joinWith (lit ", ") ts ++ [']']), by simp [lit]⟩
        have hin := inline_repr _ _ hq hnote
        have hline : '\n' ∉ reprText ((items.map (code p)).map charOf) ++ (lit " # " ++ (['['] ++ joinWith (lit ", ") ts ++ [']'])) := by
          intro hm
          rcases List.mem_append.1 hm with hm | hm
          · exact reprText_line _ hm
          · rcases List.mem_append.1 hm with hm | hm
            · simp [lit] at hm
            · obtain ⟨_, _, _, hl, _⟩ := hinl
              exact hl hm
        rw [hdec, List.append_assoc]
        obtain ⟨cs, hr | hr⟩ := reprText_head ((items.map (code p)).map charOf)
        · rw [hr] at hin hline ⊢
          exact ⟨'\'', _, rfl, hline, by decide, by decide, hin, itemOf_other _ _ (by decide), keyOf_other _ _ (by decide) (by decide)⟩
        · rw [hr] at hin hline ⊢
          exact ⟨'"', _, rfl, hline, by decide, by decide, hin, itemOf_other _ _ (by decide), keyOf_other _ _ (by decide) (by decide)⟩
  · refine ⟨_, _, ?_, hlist, hinl⟩
    show (if stringLike p d = true then _ else _) = _
    rw [if_neg hs]
    rfl

/-! ## Everything else -/

theorem ok_bind {α β : Type} (x : α) (f : α → Except Err β) : (Except.ok x >>= f) = f x := rfl

/-- A single primitive value. -/
theorem yaml_prim (level : Nat) (note : Option Args) (hg : ∀ g, note = some g → NoteOk g) (p : PrimTy) (v : Val) (hw : WfN (.prim p) = true)
    (hv : hasTy (NTy.prim p).ty v = true) (hc : clear (.prim p) v = true) :
    ∃ s tree, toYaml level note (.prim p) v = .ok s ∧ Means yamlForm (.prim p) v tree ∧ Inline s tree := by
  obtain ⟨bits, rfl, hb⟩ := prim_item p v hv
  obtain ⟨x, hx, hm⟩ := primValue_means p bits hw hb
  simp only [clear] at hc
  obtain ⟨s, tail, ht, hleaf, hnote, hline, _, hmp⟩ := leafText_means p bits x note hg hw hb hm hc
  have hin := inline_leaf s tail hleaf hnote
  have hkey := keyOf_leaf s tail hleaf hnote
  have hdash : s ≠ ['-'] := by
    rintro rfl
    rw [show resolve ['-'] = .str ['-'] by rfl] at hmp
    unfold MeansPrim at hmp
    cases hk : p.kind <;> rw [hk] at hmp <;> simp only [yamlForm] at hmp
    · cases hmp
    · cases hmp
    · cases hmp
    · obtain ⟨f, _, hf⟩ := hmp
      cases f <;> simp at hf
  refine ⟨s ++ tail, resolve s, by simp only [toYaml, hx]; exact ht, by simp only [Means]; exact hmp, ?_⟩
  cases s with
  | nil => exact absurd rfl hleaf.1
  | cons c cs =>
    have hcl : LeafChar c := hleaf.2 c (by simp)
    refine ⟨c, cs ++ tail, rfl, ?_, hcl.ne_space, hcl.ne_hash, hin, ?_, hkey⟩
    · intro hmem
      rcases List.mem_append.1 hmem with hmem | hmem
      · exact (hleaf.2 _ hmem).ne_newline rfl
      · exact hline hmem
    · by_cases hcd : c = '-'
      · subst hcd
        cases cs with
        | nil => exact absurd rfl hdash
        | cons d ds => exact itemOf_minus d _ ((hleaf.2 d (by simp)).ne_space)
      · exact itemOf_other _ _ hcd

/-- The items of an array of structures or unions. -/
theorem yaml_items (level : Nat) (f : Val → Except Err Str) (R : Val → Tree → Prop) (items : List Val)
    (h : ∀ v ∈ items, ∃ s tree, f v = .ok s ∧ R v tree ∧ Follows (level + 1) s tree) :
    ∃ ts ls xs, (items.mapM fun v => do let t ← f v; pure (newline level ++ lit "- " ++ t)) = .ok ts ∧ ts.flatten = flat ls ∧ ItemLines (2 * level) ls xs ∧ Each R items xs := by
  induction items with
  | nil => exact ⟨[], [], [], rfl, rfl, .empty _, .nil⟩
  | cons v vs ih =>
    obtain ⟨ts, ls, xs, h1, h2, h3, h4⟩ := ih fun x hx => h x (by simp [hx])
    obtain ⟨s, tree, hs, hr, hf⟩ := h v (by simp)
    obtain ⟨ls', hl, hfl⟩ := ItemLines.cons level s tree ls xs hf h3
    refine ⟨(newline level ++ lit "- " ++ s) :: ts, ls', tree :: xs, ?_, ?_, hl, .cons hr h4⟩
    · rw [List.mapM_cons, hs, h1]; rfl
    · rw [List.flatten_cons, h2, hfl]

/-- The text of fields: at the top the line feed in front of the first one is missing. -/
def joined (first : Bool) (level : Nat) (ls : List Line) : Str := if first = true ∧ level = 0 then (flat ls).drop 1 else flat ls

theorem joined_cons (first : Bool) (level : Nat) (name s : Str) (ls ls' : List Line) (h : flat ls' = newline level ++ name ++ lit ": " ++ s ++ flat ls) :
    (if (first = true ∧ level > 0) ∨ first = false then newline level else []) ++ name ++ lit ": " ++ s ++ flat ls = joined first level ls' := by
  unfold joined
  rw [h]
  by_cases hf : first = true ∧ level = 0
  · rw [if_neg (by simp [hf.1, hf.2]), if_pos hf]
    simp [newline, hf.2]
  · rw [if_neg hf, if_pos]
    cases first
    · exact .inr rfl
    · exact .inl ⟨rfl, by simp at hf; omega⟩

theorem joined_nil (first : Bool) (level : Nat) : joined first level [] = [] := by
  unfold joined
  split <;> rfl

/-- No field of a union is shown if none was chosen, or it was passed. -/
theorem yamlFields_none (level : Nat) (cs : List Const) (nf : Nat) (first : Bool) (names : List Str) (fs : List NTy) (vs : List Val) (active : Option Nat) (i : Nat)
    (hn : names.length = fs.length) (hv : hasTys (NTy.tys fs) vs = true) (h : ∀ k, active = some k → k < i) :
    yamlFields level true cs nf active i first names fs vs = .ok ([], first) := by
  induction fs generalizing names vs i with
  | nil => cases vs <;> simp [NTy.tys, hasTys] at hv; simp [yamlFields]
  | cons f fs ih =>
    cases vs with
    | nil => simp [NTy.tys, hasTys] at hv
    | cons v vs =>
      cases names with
      | nil => simp at hn
      | cons name names =>
        simp only [yamlFields]
        rw [if_pos ⟨trivial, fun hk => by have := h i hk; omega⟩]
        refine ih names vs (i + 1) (by simpa using hn) (by simp [NTy.tys, hasTys] at hv; exact hv.2) ?_
        intro k hk
        have := h k hk
        omega

theorem pairs_follow {level : Nat} {ls : List Line} {kvs : List (Str × Tree)} (h : PairLines (2 * level) ls kvs) (hne : kvs ≠ []) : Follows level (flat ls) (.map kvs) := by
  refine follows_block level ls _ h.clean ?_ fun n rest fuel hn hr hf => h.block hne (n + 1) rest fuel (within_mono _ _ _ hr (by omega)) hf
  obtain ⟨l, ls', rfl, hi, _⟩ := h.key hne
  simp [within, hi]

theorem items_follow {level : Nat} {ls : List Line} {xs : List Tree} (h : ItemLines (2 * level) ls xs) (hne : xs ≠ []) : Follows level (flat ls) (.list xs) := by
  refine follows_block level ls _ h.clean ?_ fun n rest fuel hn hr hf => h.block hne (n + 1) rest fuel (within_mono _ _ _ hr (by omega)) hf
  obtain ⟨l, ls', rfl, hi, _⟩ := h.mark hne
  simp [within, hi]

theorem follows_braces (level : Nat) : Follows level (newline level ++ lit "{}") (.map []) := by
  rw [show newline level ++ lit "{}" = flat [⟨2 * level, lit "{}"⟩] by simp [flat, newline]]
  refine follows_block level _ _ ?_ (by simp [within]) ?_
  · intro l hl
    rw [List.mem_singleton] at hl
    subst hl
    exact ⟨show '\n' ∉ lit "{}" by decide, '{', ['}'], rfl, by decide, by decide⟩
  · intro n rest fuel hn hr hf
    obtain ⟨f, rfl⟩ : ∃ f, fuel = f + 1 := ⟨fuel - 1, by omega⟩
    rw [List.singleton_append, YamlSpec.block]
    rw [show itemOf (lit "{}") = none by decide, show keyOf (lit "{}") = none by decide, show YamlSpec.inline (lit "{}") = some (.map []) by rfl, hr]
    rfl

/-- The note of a field can be made. -/
theorem note_field (cs : List Const) (nf : Nat) (name : Str) (hnf : 0 < nf) (hcs : cs.all (fun c => c.name.all keyChar) = true) (hname : name ≠ []) :
    ∀ g, some (⟨cs, nf, name, false, fun _ => []⟩ : Args) = some g → NoteOk g := by
  intro g hg
  cases hg
  refine ⟨hnf, hname, rfl, ?_⟩
  intro c hc hm
  have := List.all_eq_true.1 (List.all_eq_true.1 hcs c hc) _ hm
  exact absurd this (by decide)

mutual
theorem yaml_follows : ∀ (t : NTy) (v : Val) (level : Nat) (note : Option Args), 0 < level → (∀ g, note = some g → NoteOk g) → WfN t = true → hasTy t.ty v = true →
    clear t v = true → t.isVoid = false → ∃ s tree, toYaml level note t v = .ok s ∧ Means yamlForm t v tree ∧ Follows level s tree
  | .void n, v, level, note, hl, hg, hw, hv, hc, hd => by simp [NTy.isVoid] at hd
  | .prim p, v, level, note, hl, hg, hw, hv, hc, hd => by
    obtain ⟨s, tree, h1, h2, h3⟩ := yaml_prim level note hg p v hw hv hc
    exact ⟨s, tree, h1, h2, h3.follows level⟩
  | .arr (.prim p) d m, v, level, note, hl, hg, hw, hv, hc, hd => by
    cases v <;> simp [NTy.ty, hasTy] at hv
    rename_i items
    have hw : WfN (.prim p) = true := by simp only [WfN, Bool.and_eq_true] at hw ⊢; exact hw.2
    obtain ⟨s, tree, h1, h2, h3⟩ := yaml_primArray level note p d m items hw (by simpa only [NTy.ty] using hv) hc
    exact ⟨s, tree, h1, h2, h3.follows level⟩
  | .arr (.comp u cs ns fs) d m, v, level, note, hl, hg, hw, hv, hc, hd => by
    cases v <;> simp only [NTy.ty, hasTy, Bool.false_eq_true] at hv
    rename_i items
    have hw : WfN (.comp u cs ns fs) = true := by rw [WfN, Bool.and_eq_true] at hw; exact hw.2
    simp only [clear, Bool.and_eq_true] at hc
    obtain ⟨ts, ls, xs, h1, h2, h3, h4⟩ := yaml_items level (fun v => toYaml (level + 1) none (.comp u cs ns fs) v) (fun v y => Means yamlForm (.comp u cs ns fs) v y) items (by
      intro v hvm
      exact yaml_follows (.comp u cs ns fs) v (level + 1) none (by omega) (by intro g hg; cases hg) hw (by simp only [NTy.ty]; exact List.all_eq_true.1 hv v hvm)
        (List.all_eq_true.1 hc.2 v hvm) rfl)
    simp only [toYaml, NTy.primOf]
    by_cases hne : items = []
    · rw [if_pos hne]
      subst hne
      exact ⟨_, .list [], rfl, by simp only [Means]; exact .inl ⟨[], rfl, .nil⟩, follows_inline level '[' [']'] _ (by decide) (by decide) (by decide) rfl⟩
    · rw [if_neg hne, h1]
      refine ⟨_, .list xs, rfl, by simp only [Means]; exact .inl ⟨xs, rfl, h4⟩, ?_⟩
      rw [h2]
      refine items_follow h3 ?_
      rintro rfl
      cases h4
      exact hne rfl
  | .arr (.void _) d m, v, level, note, hl, hg, hw, hv, hc, hd => by simp [WfN] at hw
  | .arr (.arr ..) d m, v, level, note, hl, hg, hw, hv, hc, hd => by simp [WfN] at hw
  | .comp false cs ns fs, v, level, note, hl, hg, hw, hv, hc, hd => by
    cases v <;> simp only [NTy.ty, hasTy, Bool.false_eq_true] at hv
    rename_i active vs
    rw [Bool.and_eq_true] at hv
    simp only [WfN, Bool.and_eq_true, beq_iff_eq] at hw
    rw [clear] at hc
    obtain ⟨ls, kvs, h1, h2, h3⟩ := yaml_fields ns fs vs level cs fs.length active 0 true (Nat.le_refl _) hw.1.1.1.1 hw.1.1.1.2 hw.1.1.2 hw.1.2 hv.1 hc
    simp only [toYaml, h1, ok_bind]
    have hj : joined true level ls = flat ls := by unfold joined; rw [if_neg (by omega)]
    refine ⟨if kvs.isEmpty = true then newline level ++ lit "{}" else flat ls, .map kvs, ?_, by simp only [Means]; exact ⟨kvs, rfl, h3⟩, ?_⟩
    · cases kvs with
      | nil =>
        have := h2.nil rfl
        subst this
        rw [if_pos (by simp), if_pos hl, hj]
        simp [flat, pure, Except.pure]
      | cons kv kvs =>
        rw [if_neg (by simp), hj]
        rfl
    · cases kvs with
      | nil => exact follows_braces level
      | cons kv kvs => exact pairs_follow h2 (by simp)
  | .comp true cs ns fs, v, level, note, hl, hg, hw, hv, hc, hd => by
    cases v <;> simp only [NTy.ty, hasTy, Bool.false_eq_true] at hv
    rename_i active vs
    rw [Bool.and_eq_true] at hv
    simp only [WfN, Bool.and_eq_true, beq_iff_eq, Bool.not_true, Bool.false_or] at hw
    simp only [toYaml]
    cases active with
    | none =>
      rw [yamlFields_none level cs fs.length true ns fs vs none 0 hw.1.1.1.1 hv.1 (by intro k hk; cases hk)]
      exact ⟨[], .null, rfl, by simp only [Means]; rfl, follows_nothing level⟩
    | some k =>
      have hk : k < fs.length := by have := hv.2; simp [tys_length] at this; exact this
      simp only [clear] at hc
      obtain ⟨ls, kv, h1, h2, h3⟩ := yaml_nth ns fs vs level cs fs.length k 0 k (by omega) (Nat.le_refl _) hk hw.1.1.1.1 hw.1.1.1.2 hw.1.1.2 hw.1.2 hw.2 hv.1 hc
      have hj : joined true level ls = flat ls := by unfold joined; rw [if_neg (by omega)]
      rw [h1, hj]
      exact ⟨flat ls, .map [kv], rfl, by simp only [Means]; exact ⟨kv, rfl, h3⟩, pairs_follow h2 (by simp)⟩
theorem yaml_fields : ∀ (names : List Str) (fs : List NTy) (vs : List Val) (level : Nat) (cs : List Const) (nf : Nat) (active : Option Nat) (i : Nat) (first : Bool),
    fs.length ≤ nf → names.length = fs.length → names.all (fun s => s ≠ [] && s.all keyChar) = true → cs.all (fun c => c.name.all keyChar) = true → WfNs fs = true →
    hasTys (NTy.tys fs) vs = true → clearFields fs vs = true →
    ∃ ls kvs, yamlFields level false cs nf active i first names fs vs = .ok (joined first level ls, first && kvs.isEmpty) ∧ PairLines (2 * level) ls kvs ∧ MeansFields yamlForm names fs vs kvs
  | names, [], vs, level, cs, nf, active, i, first, hnf, hn, hna, hcs, hw, hv, hc => by
    cases vs <;> simp [NTy.tys, hasTys] at hv
    cases names <;> simp at hn
    exact ⟨[], [], by simp [yamlFields, joined_nil], .empty _, by simp [MeansFields]⟩
  | names, f :: fs, vs, level, cs, nf, active, i, first, hnf, hn, hna, hcs, hw, hv, hc => by
    cases vs with
    | nil => simp [NTy.tys, hasTys] at hv
    | cons v vs =>
      cases names with
      | nil => simp at hn
      | cons name names =>
        simp only [NTy.tys, hasTys, Bool.and_eq_true] at hv
        simp only [WfNs, Bool.and_eq_true] at hw
        rw [clearFields, Bool.and_eq_true] at hc
        simp only [List.all_cons, Bool.and_eq_true, decide_eq_true_eq] at hna
        simp only [List.length_cons] at hnf hn
        simp only [yamlFields]
        rw [if_neg (by simp)]
        by_cases hvd : f.isVoid = true
        · obtain ⟨ls, kvs, h1, h2, h3⟩ := yaml_fields names fs vs level cs nf active (i + 1) first (by omega) (by omega) hna.2 hcs hw.2 hv.2 hc.2
          rw [if_pos hvd]
          cases f <;> simp [NTy.isVoid] at hvd
          exact ⟨ls, kvs, h1, h2, by simp only [MeansFields]; exact h3⟩
        · obtain ⟨ls, kvs, h1, h2, h3⟩ := yaml_fields names fs vs level cs nf active (i + 1) false (by omega) (by omega) hna.2 hcs hw.2 hv.2 hc.2
          obtain ⟨s, tree, ht, hm, hf⟩ := yaml_follows f v (level + 1) (some ⟨cs, nf, name, false, fun _ => []⟩) (by omega)
            (note_field cs nf name (by omega) hcs hna.1.1) hw.1 hv.1 hc.1 (by simpa using hvd)
          obtain ⟨ls', hp, hfl⟩ := PairLines.cons level name s tree ls kvs hna.1.1 (List.all_eq_true.1 hna.1.2) hf h2
          rw [if_neg hvd]
          refine ⟨ls', (name, tree) :: kvs, ?_, hp, ?_⟩
          · rw [ht, h1]
            have : joined false level ls = flat ls := by unfold joined; rw [if_neg (by simp)]
            rw [this, ← joined_cons first level name s ls ls' hfl]
            simp [Bind.bind, Except.bind, pure, Except.pure]
          · cases f <;> first | (simp [NTy.isVoid] at hvd; done) | (simp only [MeansFields]; exact ⟨tree, kvs, rfl, hm, h3⟩)
theorem yaml_nth : ∀ (names : List Str) (fs : List NTy) (vs : List Val) (level : Nat) (cs : List Const) (nf : Nat) (a i k : Nat), a = i + k →
    fs.length ≤ nf → k < fs.length → names.length = fs.length → names.all (fun s => s ≠ [] && s.all keyChar) = true → cs.all (fun c => c.name.all keyChar) = true → WfNs fs = true →
    fs.all (fun f => !f.isVoid) = true → hasTys (NTy.tys fs) vs = true → clearNth k fs vs = true →
    ∃ ls kv, yamlFields level true cs nf (some a) i true names fs vs = .ok (joined true level ls, false) ∧ PairLines (2 * level) ls [kv] ∧ MeansNth yamlForm k names fs vs kv
  | names, [], vs, level, cs, nf, a, i, k, ha, hnf, hk, hn, hna, hcs, hw, hvd, hv, hc => by simp at hk
  | names, f :: fs, vs, level, cs, nf, a, i, k, ha, hnf, hk, hn, hna, hcs, hw, hvd, hv, hc => by
    cases vs with
    | nil => simp [NTy.tys, hasTys] at hv
    | cons v vs =>
      cases names with
      | nil => simp at hn
      | cons name names =>
        simp only [NTy.tys, hasTys, Bool.and_eq_true] at hv
        simp only [WfNs, Bool.and_eq_true] at hw
        simp only [List.all_cons, Bool.and_eq_true, Bool.not_eq_true'] at hvd
        simp only [List.all_cons, Bool.and_eq_true, decide_eq_true_eq] at hna
        simp only [List.length_cons] at hnf hn hk
        cases k with
        | zero =>
          simp only [clearNth] at hc
          obtain ⟨s, tree, ht, hm, hf⟩ := yaml_follows f v (level + 1) (some ⟨cs, nf, name, false, fun _ => []⟩) (by omega)
            (note_field cs nf name (by omega) hcs hna.1.1) hw.1 hv.1 hc hvd.1
          obtain ⟨ls', hp, hfl⟩ := PairLines.cons level name s tree [] [] hna.1.1 (List.all_eq_true.1 hna.1.2) hf (.empty _)
          simp only [yamlFields]
          rw [if_neg (by rintro ⟨_, h⟩; exact h (by rw [ha]; rfl)), hvd.1]
          rw [yamlFields_none level cs nf false names fs vs (some a) (i + 1) (by omega) hv.2 (by intro k hk; cases hk; omega), ht]
          refine ⟨ls', (name, tree), ?_, hp, by simp only [MeansNth]; exact ⟨trivial, hm⟩⟩
          rw [← joined_cons true level name s [] ls' hfl]
          simp [Bind.bind, Except.bind, pure, Except.pure, flat]
        | succ k =>
          simp only [clearNth] at hc
          obtain ⟨ls, kv, h1, h2, h3⟩ := yaml_nth names fs vs level cs nf a (i + 1) k (by omega) (by omega) (by omega) (by omega) hna.2 hcs hw.2 hvd.2 hv.2 hc
          simp only [yamlFields, MeansNth]
          rw [if_pos ⟨trivial, by intro h; cases h; omega⟩]
          exact ⟨ls, kv, h1, h2, h3⟩
end

/-! ## Documents -/

theorem docLines_newline (s : Str) : docLines ('\n' :: s) = docLines s := by
  unfold docLines
  rw [breakLines, List.map_cons, List.filter_cons]
  rfl

theorem docLines_lines (ls : List Line) (h : ∀ l ∈ ls, Clean l) : docLines (flat ls) = ls := by
  have := docLines_flat [] (by simp) ls h
  simpa [show docLines [] = [] from rfl] using this

theorem docLines_joined (ls : List Line) (h : ∀ l ∈ ls, Clean l) : docLines (joined true 0 ls) = ls := by
  unfold joined
  rw [if_pos ⟨rfl, rfl⟩]
  cases ls with
  | nil => rfl
  | cons l ls =>
    rw [flat_cons, List.cons_append, List.drop_one, List.tail_cons, ← docLines_newline]
    rw [← List.cons_append, ← flat_cons]
    exact docLines_lines _ h

theorem read_pairs (s : Str) {ls : List Line} {kvs : List (Str × Tree)} (h : PairLines 0 ls kvs) (hne : kvs ≠ []) (hs : docLines s = ls) : read s = some (.map kvs) := by
  obtain ⟨l, ls', hl, _⟩ := h.key hne
  refine read_block s ls _ hs (by rw [hl]; simp) ?_
  have := h.block hne 0 [] (3 * ls.length + 3) rfl (by simp)
  rwa [List.append_nil] at this

theorem read_items (s : Str) {ls : List Line} {xs : List Tree} (h : ItemLines 0 ls xs) (hne : xs ≠ []) (hs : docLines s = ls) : read s = some (.list xs) := by
  obtain ⟨l, ls', hl, _⟩ := h.mark hne
  refine read_block s ls _ hs (by rw [hl]; simp) ?_
  have := h.block hne 0 [] (3 * ls.length + 3) rfl (by simp)
  rwa [List.append_nil] at this

/-- The text of a clear value is YAML that says what the value is. -/
theorem C99_partial (t : NTy) (v : Val) (hw : WfN t = true) (hv : hasTy t.ty v = true) (hd : t.isVoid = false) (hc : clear t v = true) :
    ∃ s tree, toYaml 0 none t v = .ok s ∧ read s = some tree ∧ Means yamlForm t v tree := by
  cases t with
  | void n => simp [NTy.isVoid] at hd
  | prim p =>
    obtain ⟨s, tree, h1, h2, h3⟩ := yaml_prim 0 none (by intro g hg; cases hg) p v hw hv hc
    exact ⟨s, tree, h1, h3.read, h2⟩
  | arr e d m =>
    cases v <;> simp only [NTy.ty, hasTy, Bool.false_eq_true] at hv
    rename_i items
    cases e with
    | void n => simp [WfN] at hw
    | arr e' d' m' => simp [WfN] at hw
    | prim p =>
      have hw : WfN (.prim p) = true := by simp only [WfN, Bool.and_eq_true] at hw ⊢; exact hw.2
      obtain ⟨s, tree, h1, h2, h3⟩ := yaml_primArray 0 none p d m items hw (fun v hm => by
        have : items.all (fun v => hasTy (NTy.prim p).ty v) = true := by first | exact hv | (simp at hv ⊢; first | exact hv | exact hv.1)
        exact List.all_eq_true.1 this v hm) hc
      exact ⟨s, tree, h1, h3.read, h2⟩
    | comp u cs ns fs =>
      have hw : WfN (.comp u cs ns fs) = true := by rw [WfN, Bool.and_eq_true] at hw; exact hw.2
      simp only [clear, Bool.and_eq_true] at hc
      obtain ⟨ts, ls, xs, h1, h2, h3, h4⟩ := yaml_items 0 (fun v => toYaml (0 + 1) none (.comp u cs ns fs) v) (fun v y => Means yamlForm (.comp u cs ns fs) v y) items (by
        intro v hvm
        exact yaml_follows (.comp u cs ns fs) v (0 + 1) none (by omega) (by intro g hg; cases hg) hw (by simp only [NTy.ty]; exact List.all_eq_true.1 hv v hvm)
          (List.all_eq_true.1 hc.2 v hvm) rfl)
      simp only [toYaml, NTy.primOf]
      by_cases hne : items = []
      · rw [if_pos hne]
        subst hne
        exact ⟨_, .list [], rfl, read_inline '[' [']'] _ (by decide) (by decide) (by decide) rfl rfl rfl, by simp only [Means]; exact .inl ⟨[], rfl, .nil⟩⟩
      · rw [if_neg hne, h1]
        refine ⟨_, .list xs, rfl, ?_, by simp only [Means]; exact .inl ⟨xs, rfl, h4⟩⟩
        rw [h2]
        refine read_items _ h3 ?_ (docLines_lines ls h3.clean)
        rintro rfl
        cases h4
        exact hne rfl
  | comp u cs ns fs =>
    cases v <;> simp only [NTy.ty, hasTy, Bool.false_eq_true] at hv
    rename_i active vs
    rw [Bool.and_eq_true] at hv
    cases u with
    | false =>
      simp only [WfN, Bool.and_eq_true, beq_iff_eq] at hw
      rw [clear] at hc
      obtain ⟨ls, kvs, h1, h2, h3⟩ := yaml_fields ns fs vs 0 cs fs.length active 0 true (Nat.le_refl _) hw.1.1.1.1 hw.1.1.1.2 hw.1.1.2 hw.1.2 hv.1 hc
      simp only [toYaml, h1, ok_bind]
      cases kvs with
      | nil =>
        have := h2.nil rfl
        subst this
        rw [if_pos (by simp)]
        exact ⟨_, .map [], rfl, read_inline '{' ['}'] _ (by decide) (by decide) (by decide) rfl rfl rfl, by simp only [Means]; exact ⟨[], rfl, h3⟩⟩
      | cons kv kvs =>
        rw [if_neg (by simp)]
        exact ⟨_, .map (kv :: kvs), rfl, read_pairs _ h2 (by simp) (docLines_joined ls h2.clean), by simp only [Means]; exact ⟨_, rfl, h3⟩⟩
    | true =>
      simp only [WfN, Bool.and_eq_true, beq_iff_eq, Bool.not_true, Bool.false_or] at hw
      simp only [toYaml]
      cases active with
      | none =>
        rw [yamlFields_none 0 cs fs.length true ns fs vs none 0 hw.1.1.1.1 hv.1 (by intro k hk; cases hk)]
        exact ⟨[], .null, rfl, rfl, by simp only [Means]; rfl⟩
      | some k =>
        have hk : k < fs.length := by have := hv.2; simp [tys_length] at this; exact this
        simp only [clear] at hc
        obtain ⟨ls, kv, h1, h2, h3⟩ := yaml_nth ns fs vs 0 cs fs.length k 0 k (by omega) (Nat.le_refl _) hk hw.1.1.1.1 hw.1.1.1.2 hw.1.1.2 hw.1.2 hw.2 hv.1 hc
        rw [h1]
        exact ⟨_, .map [kv], rfl, read_pairs _ h2 (by simp) (docLines_joined ls h2.clean), by simp only [Means]; exact ⟨kv, rfl, h3⟩⟩

/-! ## The first line of a transfer -/

theorem fixed_line (k : Nat) (x : PyFloat) : '\n' ∉ fixed k x := by
  cases x with
  | fin neg q => exact fun h => ((fixed_leaf k neg q).2 _ h).ne_newline rfl
  | inf neg => cases neg <;> simp [fixed, lit]
  | nan neg => simp [fixed, lit]

theorem nodeText_line (other : Str) (n : Option Nat) (h : '\n' ∉ other) : '\n' ∉ nodeText other n := by
  cases n with
  | none => exact h
  | some n =>
    simp only [nodeText]
    split
    · exact h
    · exact fun hm => ((decimal_leaf n).2 _ hm).ne_newline rfl

/-- A transfer is shown as a comment and the payload. -/
theorem C99_transfer (header : Str) (hh : '\n' ∉ header) (source dest : Option Nat) (mono real : PyFloat) (t : NTy) (v : Val) (s : Str) (h : toYaml 0 none t v = .ok s) :
    ∃ s', transferYaml header source dest mono real t v = .ok s' ∧ read s' = read s := by
  unfold transferYaml
  rw [h]
  refine ⟨_, rfl, ?_⟩
  unfold YamlSpec.read
  rw [show ∀ a : Str, (a ++ ['\n'] ++ s) = a ++ '\n' :: s by simp]
  have : ∀ a : Str, '\n' ∉ a → docLines (lit "#" ++ a ++ '\n' :: s) = docLines s := by
    intro a ha
    unfold docLines
    rw [breakLines_append _ _ (by simp [lit, ha]), List.map_cons, List.filter_cons]
    simp [toLine, lit, dropSpaces]
  have := this (lit "## " ++ header ++ lit " from " ++ nodeText (lit "Anon") source ++ lit " to " ++ nodeText (lit "All") dest ++ lit "  ts_mono=" ++ fixed 6 mono ++
    lit "  ts_real=" ++ fixed 6 real) (by
      have h1 := nodeText_line (lit "Anon") source (by decide)
      have h2 := nodeText_line (lit "All") dest (by decide)
      have h3 := fixed_line 6 mono
      have h4 := fixed_line 6 real
      simp only [List.mem_append, not_or]
      exact ⟨⟨⟨⟨⟨⟨⟨⟨⟨by decide, hh⟩, by decide⟩, h1⟩, by decide⟩, h2⟩, by decide⟩, h3⟩, by decide⟩, h4⟩)
  rw [show lit "### " = lit "#" ++ lit "## " from rfl]
  simp only [List.append_assoc] at this ⊢
  rw [this]

/-- What stands for a node in the first line: its number, or `other` if there is none. -/
def Called (other : Str) (node : Option Nat) (w : Str) : Prop :=
  (node = none ∨ node = some 0) ∧ w = other ∨ ∃ k, 0 < k ∧ node = some k ∧ w = decimal k

theorem called_nodeText (other : Str) (node : Option Nat) : Called other node (nodeText other node) := by
  unfold nodeText Called
  cases node with
  | none => simp
  | some n =>
    by_cases h : n = 0
    · simp [h]
    · exact .inr ⟨n, by omega, rfl, by simp [h]⟩

/-- The first line names the source and the destination. -/
theorem C99_header (header : Str) (source dest : Option Nat) (mono real : PyFloat) (t : NTy) (v : Val) (s : Str)
    (h : transferYaml header source dest mono real t v = .ok s) : ∃ from' to' rest, Called (lit "Anon") source from' ∧ Called (lit "All") dest to' ∧
      s = lit "### " ++ header ++ lit " from " ++ from' ++ lit " to " ++ to' ++ lit "  ts_mono=" ++ rest := by
  refine ⟨_, _, fixed 6 mono ++ (lit "  ts_real=" ++ (fixed 6 real ++ (['\n'] ++ (toYaml 0 none t v).toOption.getD []))), called_nodeText _ source, called_nodeText _ dest, ?_⟩
  unfold transferYaml at h
  cases hy : toYaml 0 none t v with
  | error e => rw [hy] at h; exact nomatch h
  | ok y =>
    rw [hy] at h
    cases h
    simp [Except.toOption]

/-! ## Comments -/

/-- After the first field every line of a structure begins with a line feed. -/
theorem yamlFields_post (level : Nat) (u : Bool) (cs : List Const) (nf : Nat) (active : Option Nat) (i : Nat) (names : List Str) (fs : List NTy) (vs : List Val) (s : Str) (b : Bool)
    (h : yamlFields level u cs nf active i false names fs vs = .ok (s, b)) : b = false ∧ (s = [] ∨ s.head? = some '\n') := by
  induction fs generalizing names vs i s b with
  | nil =>
    cases vs <;> simp only [yamlFields] at h
    · cases h; exact ⟨rfl, .inl rfl⟩
    · cases h
  | cons f fs ih =>
    cases vs with
    | nil => simp only [yamlFields] at h; cases h
    | cons v vs =>
      cases names with
      | nil => simp only [yamlFields] at h; cases h
      | cons name names =>
        simp only [yamlFields] at h
        split at h
        · exact ih _ _ _ _ _ h
        · split at h
          · exact ih _ _ _ _ _ h
          · cases ht : toYaml (level + 1) (some ⟨cs, nf, name, false, fun _ => []⟩) f v with
            | error e => rw [ht] at h; cases h
            | ok t =>
              rw [ht, ok_bind] at h
              cases hr : yamlFields level u cs nf active (i + 1) false names fs vs with
              | error e => rw [hr] at h; cases h
              | ok sb =>
                rw [hr, ok_bind] at h
                cases h
                exact ⟨(ih _ _ _ _ _ hr).1, .inr (by simp [newline])⟩

/-- The line of a field: `pre` ends with a line feed and the indentation (or is empty at the top), `post` is empty or begins with a line feed. -/
def HasLine (top : Bool) (level : Nat) (s line : Str) : Prop :=
  ∃ pre post, s = pre ++ line ++ post ∧ ((top = true ∧ level = 0 ∧ pre = []) ∨ ∃ p, pre = p ++ '\n' :: List.replicate (2 * level) ' ') ∧ (post = [] ∨ post.head? = some '\n')

theorem yamlFields_line (level : Nat) (u : Bool) (cs : List Const) (nf : Nat) (active : Option Nat) (i : Nat) (first : Bool) (names : List Str) (fs : List NTy) (vs : List Val) (s : Str)
    (b : Bool) (h : yamlFields level u cs nf active i first names fs vs = .ok (s, b)) (k : Nat) (f : NTy) (v : Val) (name : Str) (hf : fs[k]? = some f) (hv : vs[k]? = some v)
    (hn : names[k]? = some name) (hd : f.isVoid = false) (hu : u = false ∨ active = some (i + k)) :
    b = false ∧ ∃ t, toYaml (level + 1) (some ⟨cs, nf, name, false, fun _ => []⟩) f v = .ok t ∧ HasLine first level s (name ++ lit ": " ++ t) := by
  induction fs generalizing names vs i s b first k with
  | nil => simp at hf
  | cons g fs ih =>
    cases vs with
    | nil => simp at hv
    | cons w vs =>
      cases names with
      | nil => simp at hn
      | cons m names =>
        simp only [yamlFields] at h
        cases k with
        | zero =>
          simp only [List.getElem?_cons_zero, Option.some.injEq] at hf hv hn
          subst hf hv hn
          rw [if_neg (by rcases hu with hu | hu <;> simp [hu]), hd] at h
          simp only [Bool.false_eq_true, if_false] at h
          cases ht : toYaml (level + 1) (some ⟨cs, nf, m, false, fun _ => []⟩) g w with
          | error e => rw [ht] at h; cases h
          | ok t =>
            rw [ht, ok_bind] at h
            cases hr : yamlFields level u cs nf active (i + 1) false names fs vs with
            | error e => rw [hr] at h; cases h
            | ok sb =>
              rw [hr, ok_bind] at h
              cases h
              have hp := yamlFields_post _ _ _ _ _ _ _ _ _ _ _ hr
              refine ⟨hp.1, t, rfl, (if (first = true ∧ level > 0) ∨ first = false then newline level else []), sb.1, by simp, ?_, hp.2⟩
              split
              · exact .inr ⟨[], rfl⟩
              · rename_i hne
                cases first
                · simp at hne
                · exact .inl ⟨rfl, by simp at hne; exact hne, rfl⟩
        | succ k =>
          simp only [List.getElem?_cons_succ] at hf hv hn
          have hu' : u = false ∨ active = some (i + 1 + k) := hu.imp id fun hu => by rw [hu]; congr 1; omega
          split at h
          · exact ih _ _ _ _ _ _ h _ hf hv hn hu'
          · split at h
            · exact ih _ _ _ _ _ _ h _ hf hv hn hu'
            · cases ht : toYaml (level + 1) (some ⟨cs, nf, m, false, fun _ => []⟩) g w with
              | error e => rw [ht] at h; cases h
              | ok t =>
                rw [ht, ok_bind] at h
                cases hr : yamlFields level u cs nf active (i + 1) false names fs vs with
                | error e => rw [hr] at h; cases h
                | ok sb =>
                  rw [hr, ok_bind] at h
                  cases h
                  obtain ⟨h1, t', ht', pre, post, h2, h3, h4⟩ := ih _ _ _ _ _ _ hr _ hf hv hn hu'
                  refine ⟨h1, t', ht', (if (first = true ∧ level > 0) ∨ first = false then newline level else []) ++ m ++ lit ": " ++ t ++ pre, post, by rw [h2]; simp, ?_, h4⟩
                  rcases h3 with ⟨h3, _⟩ | ⟨p, rfl⟩
                  · cases h3
                  · exact .inr ⟨(if (first = true ∧ level > 0) ∨ first = false then newline level else []) ++ m ++ lit ": " ++ t ++ p, by simp⟩

/-- The number that an integer of a field is. -/
def numberOf (p : PrimTy) (bits : Bits) : Int := if p.kind = .signed then bitsInt bits else bitsNat bits

theorem intText_toString (i : Int) : intText i = (toString i).toList := by
  cases i with
  | ofNat n => simp [intText, decimal, toString, Int.repr, Nat.repr]
  | negSucc n =>
    have h : Int.negSucc n < 0 := Int.negSucc_lt_zero n
    simp [intText, decimal, toString, Int.repr, Nat.repr, h]

/-- Every integer that is a field is shown on a line of its own, with the name that `value_to_constant_name` gives it (C60) as a comment. -/
theorem C99_comment (level : Nat) (note : Option Args) (u : Bool) (cs : List Const) (names : List Str) (fs : List NTy) (active : Option Nat) (vs : List Val) (s : Str)
    (h : toYaml level note (.comp u cs names fs) (.comp active vs) = .ok s) (k : Nat) (p : PrimTy) (bits : Bits) (name : Str) (hf : fs[k]? = some (.prim p)) (hv : vs[k]? = some (.prim bits))
    (hn : names[k]? = some name) (hw : WfN (.prim p) = true) (hb : bits.length = p.bitlen) (hk : p.kind = .signed ∨ p.kind = .unsigned) (hu : u = false ∨ active = some k) :
    HasLine true level s (name ++ lit ": " ++ (toString (numberOf p bits)).toList ++
      match valueToConstantName ⟨cs, fs.length, name, false, fun _ => []⟩ (.int (numberOf p bits)) with
      | .ok (.text n) => lit " # " ++ n
      | _ => []) := by
  rw [← intText_toString]
  rw [toYaml] at h
  cases hr : yamlFields level u cs fs.length active 0 true names fs vs with
  | error e => rw [hr] at h; cases h
  | ok sb =>
    obtain ⟨text, b⟩ := sb
    rw [hr, ok_bind] at h
    simp only at h
    obtain ⟨hb', t, ht, hl⟩ := yamlFields_line level u cs fs.length active 0 true names fs vs text b hr k (.prim p) (.prim bits) name hf hv hn rfl (by simpa using hu)
    rw [hb', if_neg (by simp)] at h
    cases h
    obtain ⟨x, hx, hm⟩ := primValue_means p bits hw hb
    have hxi : x = .int (numberOf p bits) := by
      unfold PyMeans at hm
      rcases hk with hk | hk <;> rw [hk] at hm <;> simp only at hm <;> simp [numberOf, hk, hm]
    rw [toYaml, hx, ok_bind, hxi] at ht
    simp only [leafText] at ht
    split at ht
    · cases ht
    · rename_i n hn'
      cases ht
      rw [hn']
      simpa using hl
    · rename_i n hn'
      cases ht
      rw [hn']
      simpa using hl

/-! ## What happens to the other values -/

/-- No quotes, backslashes or control characters. -/
def Plain (s : Str) : Prop := '\'' ∉ s ∧ '\\' ∉ s ∧ '\n' ∉ s ∧ '\r' ∉ s ∧ '\t' ∉ s

theorem singleQuoted_more (s rest r a : Str) (k : Nat) (h : singleQuoted (s.flatMap (reprChar '\'') ++ '\'' :: rest) = some (a, r)) (hs : s = List.replicate (k + 1) '\\' ++ a) : False := by
  induction s generalizing a k with
  | nil => simp [List.replicate_succ] at hs
  | cons c cs ih =>
    rw [List.replicate_succ, List.cons_append] at hs
    obtain ⟨rfl, hs⟩ := List.cons.inj hs
    rw [List.flatMap_cons, List.append_assoc, show reprChar '\'' '\\' = ['\\', '\\'] from rfl, List.cons_append, singleQuoted_cons _ _ (by decide), List.cons_append,
      singleQuoted_cons _ _ (by decide), List.nil_append] at h
    cases hq : singleQuoted (cs.flatMap (reprChar '\'') ++ '\'' :: rest) with
    | none => rw [hq] at h; cases h
    | some ar =>
      rw [hq] at h
      simp only [Option.map_some, Option.some.injEq, Prod.mk.injEq] at h
      obtain ⟨rfl, h2⟩ := h
      refine ih ar.1 (k + 1) (by rw [hq, ← h2]) ?_
      rename_i hs'
      rw [hs', show ('\\' :: '\\' :: ar.1) = List.replicate 2 '\\' ++ ar.1 from rfl, ← List.append_assoc, List.replicate_append_replicate]

theorem singleQuoted_same (s rest r : Str) (h : singleQuoted (s.flatMap (reprChar '\'') ++ '\'' :: rest) = some (s, r)) : Plain s := by
  induction s with
  | nil => simp [Plain]
  | cons c cs ih =>
    rw [List.flatMap_cons, List.append_assoc] at h
    have hesc : ∀ d : Char, c ≠ '\\' → reprChar '\'' c = ['\\', d] → False := by
      intro d hc hd
      rw [hd, List.cons_append, singleQuoted_cons _ _ (by decide)] at h
      cases hq : singleQuoted ([d] ++ (cs.flatMap (reprChar '\'') ++ '\'' :: rest)) with
      | none => rw [hq] at h; cases h
      | some ar =>
        rw [hq] at h
        simp only [Option.map_some, Option.some.injEq, Prod.mk.injEq] at h
        exact hc (List.cons.inj h.1).1.symm
    by_cases h1 : c = '\\'
    · subst h1
      exfalso
      rw [show reprChar '\'' '\\' = ['\\', '\\'] from rfl, List.cons_append, singleQuoted_cons _ _ (by decide), List.cons_append,
        singleQuoted_cons _ _ (by decide), List.nil_append] at h
      cases hq : singleQuoted (cs.flatMap (reprChar '\'') ++ '\'' :: rest) with
      | none => rw [hq] at h; cases h
      | some ar =>
        rw [hq] at h
        simp only [Option.map_some, Option.some.injEq, Prod.mk.injEq] at h
        exact singleQuoted_more cs rest ar.2 ar.1 0 hq (List.cons.inj h.1).2.symm
    · by_cases h2 : c = '\''
      · exact (hesc c h1 (by simp [reprChar, h2])).elim
      · by_cases h3 : c = '\n'
        · exact (hesc 'n' h1 (by subst h3; rfl)).elim
        · by_cases h4 : c = '\r'
          · exact (hesc 'r' h1 (by subst h4; rfl)).elim
          · by_cases h5 : c = '\t'
            · exact (hesc 't' h1 (by subst h5; rfl)).elim
            · have hr : reprChar '\'' c = [c] := by simp [reprChar, h1, h2, h3, h4, h5]
              rw [hr, List.singleton_append, singleQuoted_cons _ _ h2] at h
              cases hq : singleQuoted (cs.flatMap (reprChar '\'') ++ '\'' :: rest) with
              | none => rw [hq] at h; cases h
              | some ar =>
                rw [hq] at h
                simp only [Option.map_some, Option.some.injEq, Prod.mk.injEq] at h
                have := ih (by rw [hq, ← h.2, ← (List.cons.inj h.1).2])
                simp only [Plain, List.mem_cons, not_or] at this ⊢
                exact ⟨⟨Ne.symm h2, this.1⟩, ⟨Ne.symm h1, this.2.1⟩, ⟨Ne.symm h3, this.2.2.1⟩, ⟨Ne.symm h4, this.2.2.2.1⟩, ⟨Ne.symm h5, this.2.2.2.2⟩⟩

/-- A text in the quotes of Python is the same text in YAML exactly if it has single and no double quotes, or neither single quotes nor backslashes nor control characters. -/
theorem inline_repr_iff (s note : Str) (hn : Note note) : YamlSpec.inline (reprText s ++ note) = some (.str s) ↔ QuoteOk s := by
  refine ⟨fun h => ?_, fun h => inline_repr s note h hn⟩
  by_cases hq : '\'' ∈ s ∧ '"' ∉ s
  · exact .inl hq
  · right
    unfold reprText at h
    simp only [hq, if_false, List.singleton_append, List.append_assoc, List.cons_append] at h
    rw [YamlSpec.inline, List.nil_append, List.nil_append] at h
    cases hs : singleQuoted (s.flatMap (reprChar '\'') ++ '\'' :: note) with
    | none => rw [hs] at h; cases h
    | some ar =>
      rw [hs] at h
      simp only at h
      split at h
      · cases h
        exact singleQuoted_same _ note ar.2 hs
      · cases h

theorem read_line (c : Char) (cs : Str) (hn : '\n' ∉ c :: cs) (h1 : c ≠ ' ') (h2 : c ≠ '#') (hit : itemOf (c :: cs) = none) (hk : keyOf (c :: cs) = none) :
    read (c :: cs) = YamlSpec.inline (c :: cs) := by
  unfold YamlSpec.read
  rw [docLines_clean _ ⟨hn, c, cs, rfl, h1, h2⟩]
  simp only [List.length_cons, List.length_nil]
  rw [block, hit, hk]
  cases YamlSpec.inline (c :: cs) <;> rfl

/-- Dynamic arrays of bytes that are all nice characters: the text is read back exactly if it is clear. -/
theorem C99_text (p : PrimTy) (m : Nat) (items : List Val) (hw : WfN (.prim p) = true) (hb : p.bitlen = 8) (hv : ∀ v ∈ items, hasTy (NTy.prim p).ty v = true)
    (hn : ∀ v ∈ items, niceCode (code p v) = true) :
    ∃ s, toYaml 0 none (.arr (.prim p) true m) (.arr items) = .ok s ∧ (read s = some (.str ((items.map (code p)).map charOf)) ↔ clearText (items.map (code p)) = true) := by
  have hk : p.kind = .signed ∨ p.kind = .unsigned := by
    simp only [WfN, Bool.and_eq_true] at hw
    cases hkind : p.kind
    · rw [hkind] at hw; simp [hb] at hw
    · exact .inr rfl
    · exact .inl rfl
    · rw [hkind] at hw; simp [hb] at hw
  obtain ⟨xs, ts, h1, h2, h3, h4, h5⟩ := items_means p items hw hv (by
    intro v hvm
    obtain ⟨bits, rfl, _⟩ := prim_item p v (hv v hvm)
    simp only [clear, clearPrim]
    rcases hk with hk | hk <;> simp [hk])
  have hx := h5 hk
  have hnice : ∀ c ∈ items.map (code p), niceCode c = true := by
    intro c hc
    obtain ⟨v, hvm, rfl⟩ := List.mem_map.1 hc
    exact hn v hvm
  have hdw : (items.map (code p)).dropWhile niceCode = [] := by
    generalize items.map (code p) = cs at hnice
    induction cs with
    | nil => rfl
    | cons c cs ih => rw [List.dropWhile_cons, if_pos (hnice c (by simp))]; exact ih fun d hd => hnice d (by simp [hd])
  have hall := allNice_codes (items.map (code p)) (fun c hc => by have := niceCode_range c (hnice c hc); omega)
  rw [hdw, ← hx] at hall
  simp only at hall
  have hdec : decodeText xs = (items.map (code p)).map charOf := by rw [hx, decodeText_codes]
  simp only [toYaml, NTy.primOf, h1, h2, ok_bind, stringLike, hb, beq_self_eq_true, Bool.and_true, if_true, hall, hdec]
  refine ⟨_, rfl, ?_⟩
  have hinl := inline_flow_all ts h3
  have hnote : Note (lit " # " ++ (['['] ++ joinWith (lit ", ") ts ++ [']'])) := .inr ⟨' ' :: (['['] ++ joinWith (lit ", ") ts ++ [']']), by simp [lit]⟩
  have hline : '\n' ∉ reprText ((items.map (code p)).map charOf) ++ (lit " # " ++ (['['] ++ joinWith (lit ", ") ts ++ [']'])) := by
    intro hm
    rcases List.mem_append.1 hm with hm | hm
    · exact reprText_line _ hm
    · rcases List.mem_append.1 hm with hm | hm
      · simp [lit] at hm
      · obtain ⟨_, _, _, hl, _⟩ := hinl
        exact hl hm
  have hiff := inline_repr_iff ((items.map (code p)).map charOf) _ hnote
  rw [List.append_assoc]
  have hread : read (reprText ((items.map (code p)).map charOf) ++ (lit " # " ++ (['['] ++ joinWith (lit ", ") ts ++ [']']))) =
      YamlSpec.inline (reprText ((items.map (code p)).map charOf) ++ (lit " # " ++ (['['] ++ joinWith (lit ", ") ts ++ [']']))) := by
    obtain ⟨cs, hr | hr⟩ := reprText_head ((items.map (code p)).map charOf)
    · rw [hr] at hline ⊢
      exact read_line _ _ hline (by decide) (by decide) (itemOf_other _ _ (by decide)) (keyOf_other _ _ (by decide) (by decide))
    · rw [hr] at hline ⊢
      exact read_line _ _ hline (by decide) (by decide) (itemOf_other _ _ (by decide)) (keyOf_other _ _ (by decide) (by decide))
  rw [hread, hiff, quoteOk_codes _ (fun c hc => niceCode_range c (hnice c hc))]
  unfold clearText
  rw [hdw]
  simp [Bool.or_eq_true, Bool.and_eq_true, decide_eq_true_eq, and_assoc]

/-- A dynamic array of bytes in which a negative number comes before all others that are not nice characters cannot be shown. -/
theorem C99_negative (level : Nat) (note : Option Args) (p : PrimTy) (m : Nat) (items : List Val) (hw : WfN (.prim p) = true) (hb : p.bitlen = 8)
    (hv : ∀ v ∈ items, hasTy (NTy.prim p).ty v = true) (c : Int) (rest : List Int) (h : (items.map (code p)).dropWhile niceCode = c :: rest) (hc : c < 0) :
    toYaml level note (.arr (.prim p) true m) (.arr items) = .error .valueError := by
  have hk : p.kind = .signed ∨ p.kind = .unsigned := by
    simp only [WfN, Bool.and_eq_true] at hw
    cases hkind : p.kind
    · rw [hkind] at hw; simp [hb] at hw
    · exact .inr rfl
    · exact .inl rfl
    · rw [hkind] at hw; simp [hb] at hw
  obtain ⟨xs, ts, h1, h2, h3, h4, h5⟩ := items_means p items hw hv (by
    intro v hvm
    obtain ⟨bits, rfl, _⟩ := prim_item p v (hv v hvm)
    simp only [clear, clearPrim]
    rcases hk with hk | hk <;> simp [hk])
  have hall := allNice_codes (items.map (code p)) (by
    intro c hcm
    obtain ⟨v, hvm, rfl⟩ := List.mem_map.1 hcm
    obtain ⟨bits, rfl, hl⟩ := prim_item p v (hv v hvm)
    exact (code_range p bits (by omega)).1)
  rw [h, ← h5 hk] at hall
  simp only at hall
  rw [if_neg (by omega)] at hall
  simp only [toYaml, NTy.primOf, h1, h2, ok_bind, stringLike, hb, beq_self_eq_true, Bool.and_true, if_true, hall]
  rfl

/-- Infinities and NaN are shown as words that are strings in YAML. -/
theorem C99_nonfinite (p : PrimTy) (bits : Bits) (hw : WfN (.prim p) = true) (hb : bits.length = p.bitlen) (hk : p.kind = .float) (hf : finiteBits bits = false) :
    ∃ s, toYaml 0 none (.prim p) (.prim bits) = .ok s ∧ read s = some (.str s) := by
  obtain ⟨x, hx, hm⟩ := primValue_means p bits hw hb
  simp only [WfN, Bool.and_eq_true, hk] at hw
  unfold PyMeans at hm
  rw [hk] at hm
  simp only at hm
  obtain ⟨f, hfl, rfl⟩ := hm
  unfold finiteBits at hf
  rw [hfl] at hf
  simp only [toYaml, hx, ok_bind, leafText]
  have hlen : p.bitlen = 16 ∨ p.bitlen = 32 ∨ p.bitlen = 64 := by
    have := hw.2
    simp [or_assoc] at this
    exact this
  cases f with
  | fin neg q => simp at hf
  | inf neg =>
    cases neg
    · exact ⟨lit "inf", by rcases hlen with h | h | h <;> simp only [h] <;> rfl, read_inline 'i' ['n', 'f'] _ (by decide) (by decide) (by decide) rfl rfl rfl⟩
    · exact ⟨lit "-inf", by rcases hlen with h | h | h <;> simp only [h] <;> rfl, read_inline '-' ['i', 'n', 'f'] _ (by decide) (by decide) (by decide) rfl rfl rfl⟩
  | nan neg => exact ⟨lit "nan", by rcases hlen with h | h | h <;> simp only [h] <;> rfl, read_inline 'n' ['a', 'n'] _ (by decide) (by decide) (by decide) rfl rfl rfl⟩

/-! ## Examples -/

private def u8 : PrimTy := ⟨.unsigned, 8, false⟩
private def i8 : PrimTy := ⟨.signed, 8, false⟩
private def f16 : PrimTy := ⟨.float, 16, false⟩
private def b8 (n : Nat) : Val := .prim (formatBin 8 n)
/-- A text, a float and numbers. -/
private def partT : NTy := .comp false [] [lit "text", lit "f"] [.arr (.prim u8) true 10, .prim f16]
private def partV : Val := .comp none [.arr [b8 111, b8 107], .prim (formatBin 16 0x3555)]
private def exT : NTy := .comp false [⟨lit "MODE_OK", .int 3⟩] [lit "mode", lit "pad", lit "parts", lit "choice", lit "nothing", lit "list"]
  [.prim u8, .void 3, .arr partT true 5, .comp true [] [lit "a", lit "b"] [.prim ⟨.boolean, 1, false⟩, .prim i8], .comp false [] [] [], .arr (.prim i8) false 2]
private def exV : Val := .comp none [b8 3, .void, .arr [partV, partV], .comp (some 1) [.prim [true], b8 255], .comp none [], .arr [b8 1, b8 254]]

example : WfN exT = true ∧ hasTy exT.ty exV = true ∧ exT.isVoid = false ∧ clear exT exV = true := by decide +kernel

example : toYaml 0 none exT exV = .ok (lit "mode: 3 # OK\nparts: \n  - \n    text: 'ok' # [111, 107]\n    f: 0.3333\n  - \n    text: 'ok' # [111, 107]\n    f: 0.3333\nchoice: \n  b: -1\nnothing: \n  {}\nlist: [1, -2]") := by
  decide +kernel

/-- A backslash. -/
private def slashV : List Val := [b8 97, b8 92]
example : clearText (slashV.map (code u8)) = false ∧ (∀ v ∈ slashV, niceCode (code u8 v) = true) := by decide +kernel
example : toYaml 0 none (.arr (.prim u8) true 10) (.arr slashV) = .ok (lit "'a\\\\' # [97, 92]") := by decide +kernel

/-- A negative number after a letter. -/
example : ([b8 97, b8 255].map (code i8)).dropWhile niceCode = [-1] := by decide +kernel

/-- Different numbers may look the same: 0.00002 and 0.00003 (approximately) in half precision. -/
example : toYaml 0 none (.prim f16) (.prim (formatBin 16 0x0150)) = toYaml 0 none (.prim f16) (.prim (formatBin 16 0x01F0)) := by decide +kernel

/-- NaN. -/
theorem C99_counterexample : ¬ C99_statement := by
  intro h
  obtain ⟨s, tree, h1, h2, h3⟩ := h (.prim f16) (.prim (formatBin 16 0x7e00)) (by decide +kernel) (by decide +kernel) rfl
  obtain ⟨s', h1', h2'⟩ := C99_nonfinite f16 (formatBin 16 0x7e00) (by decide +kernel) (by decide +kernel) rfl (by decide +kernel)
  rw [h1] at h1'
  cases h1'
  rw [h2] at h2'
  cases h2'
  simp only [Means, MeansPrim, f16] at h3
  obtain ⟨f, _, hf⟩ := h3
  cases f <;> simp [yamlForm] at hf

end Display
end Dronecan
