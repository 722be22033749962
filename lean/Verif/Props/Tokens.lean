import Verif.Model.Text

/-!
# Tokens of a definition (C57)
-/

namespace Dronecan
namespace Text

/-! ## Stripping and splitting -/

theorem splitAux_ne (cur s : Str) : ∀ w ∈ splitAux cur s, w ≠ [] := by
  fun_induction splitAux cur s with
  | case1 => simp
  | case2 cur h => simpa using h
  | case3 c cs _ ih => exact ih
  | case4 cur c cs _ hc ih =>
    intro w hw
    rcases List.mem_cons.1 hw with rfl | hw
    · simpa using hc
    · exact ih w hw
  | case5 cur c cs _ ih => exact ih

theorem splitAux_spaces (s : Str) (h : ∀ c ∈ s, isSpace c = true) (cur : Str) : splitAux cur s = if cur = [] then [] else [cur.reverse] := by
  induction s generalizing cur with
  | nil => cases cur <;> simp [splitAux]
  | cons c cs ih =>
    have hc := h c (by simp)
    simp only [splitAux, hc, if_true]
    rw [ih (fun x hx => h x (List.mem_cons_of_mem _ hx))]
    split <;> simp

theorem splitAux_append_spaces (s t : Str) (h : ∀ c ∈ t, isSpace c = true) (cur : Str) : splitAux cur (s ++ t) = splitAux cur s := by
  induction s generalizing cur with
  | nil =>
    rw [List.nil_append, splitAux_spaces t h]
    cases cur <;> simp [splitAux]
  | cons c cs ih =>
    simp only [List.cons_append, splitAux]
    split
    · rw [ih]
    · exact ih _

theorem split_dropWhile (s : Str) : splitAux [] (s.dropWhile isSpace) = splitAux [] s := by
  induction s with
  | nil => rfl
  | cons c cs ih =>
    by_cases hc : isSpace c = true
    · simp [List.dropWhile_cons, hc, splitAux, ih]
    · simp [List.dropWhile_cons, hc]

theorem mem_takeWhile {p : Char → Bool} {s : Str} {c : Char} (h : c ∈ s.takeWhile p) : p c = true := by
  induction s with
  | nil => simp at h
  | cons x s ih =>
    rw [List.takeWhile_cons] at h
    split at h
    · next hx =>
      rcases List.mem_cons.1 h with rfl | h
      · exact hx
      · exact ih h
    · simp at h

theorem takeWhile_all {p : Char → Bool} {s : Str} (h : ∀ c ∈ s, p c = true) : s.takeWhile p = s := by
  induction s with
  | nil => rfl
  | cons x s ih => rw [List.takeWhile_cons, if_pos (h x (by simp)), ih (fun y hy => h y (List.mem_cons_of_mem _ hy))]

theorem rstrip_append (s : Str) : ∃ t : Str, (∀ c ∈ t, isSpace c = true) ∧ s = (s.reverse.dropWhile isSpace).reverse ++ t := by
  refine ⟨(s.reverse.takeWhile isSpace).reverse, ?_, ?_⟩
  · intro c hc
    exact mem_takeWhile (List.mem_reverse.1 hc)
  · rw [← List.reverse_append, List.takeWhile_append_dropWhile, List.reverse_reverse]

theorem split_strip (s : Str) : split (strip s) = split s := by
  unfold split strip
  obtain ⟨t, ht, he⟩ := rstrip_append (s.dropWhile isSpace)
  rw [← split_dropWhile s]
  conv => rhs; rw [he]
  rw [splitAux_append_spaces _ _ ht]

theorem splitAux_cur (cur s : Str) (h : cur ≠ []) : splitAux cur s ≠ [] := by
  induction s generalizing cur with
  | nil => cases cur <;> simp_all [splitAux]
  | cons c cs ih =>
    simp only [splitAux]
    split
    · simp [h]
    · exact ih _ (by simp)

theorem split_eq_nil (s : Str) : split s = [] ↔ ∀ c ∈ s, isSpace c = true := by
  unfold split
  induction s with
  | nil => simp [splitAux]
  | cons c cs ih =>
    simp only [splitAux, if_true]
    by_cases hc : isSpace c = true
    · simp [hc, ih]
    · have h1 := splitAux_cur [c] cs (by simp)
      simp [hc, h1]

theorem strip_eq_nil (s : Str) : strip s = [] ↔ split s = [] := by
  constructor
  · intro h
    rw [← split_strip, h]
    rfl
  · intro h
    rw [split_eq_nil] at h
    have : s.dropWhile isSpace = [] := by
      induction s with
      | nil => rfl
      | cons c cs ih =>
        rw [List.dropWhile_cons, if_pos (h c (by simp))]
        exact ih (fun x hx => h x (List.mem_cons_of_mem _ hx))
    simp [strip, this]

/-! ## A scanner -/

def finish (line : List Str) (tok : Str) : List Str := line ++ (if tok = [] then [] else [tok.reverse])

def flush (line : List Str) (rest : List (List Str)) : List (List Str) := if line = [] then rest else line :: rest

/-- One pass over the characters: whether inside a comment, the token so far (reversed), the line so far. -/
def scan : Bool → Str → List Str → Str → List (List Str)
  | _, tok, line, [] => flush (finish line tok) []
  | com, tok, line, c :: cs =>
    if isBreak c then flush (finish line tok) (scan false [] [] cs)
    else if com then scan true tok line cs
    else if c = '#' then scan true [] (finish line tok) cs
    else if isSpace c then scan false [] (finish line tok) cs
    else scan false (c :: tok) line cs

/-- The tokens of the lines, without the line numbers. -/
def stream (text : Str) : List (List Str) := (tokenize text).map Prod.snd

def lineTokens (l : Str) : List (List Str) := flush (split (dropComment l)) []

theorem tokenizeLines_snd (idx : Nat) (lines : List Str) : (tokenizeLines idx lines).map Prod.snd = lines.flatMap lineTokens := by
  induction lines generalizing idx with
  | nil => rfl
  | cons l ls ih =>
    simp only [tokenizeLines, List.flatMap_cons, lineTokens, flush]
    by_cases h : strip (dropComment l) = []
    · rw [if_neg (fun hn => hn h), if_pos ((strip_eq_nil _).1 h), ih]
      rfl
    · rw [if_pos h, if_neg (fun hs => h ((strip_eq_nil _).2 hs)), List.map_cons, ih, split_strip]
      have : (split (dropComment l)).filter (· ≠ []) = split (dropComment l) := by
        apply List.filter_eq_self.2
        intro w hw
        simpa using splitAux_ne _ _ w hw
      rw [this]
      rfl

theorem isSpace_hash : isSpace '#' = false := by decide
/-- The line boundaries: LF, VT, FF, CR, FS, GS, RS, NEL, LINE SEPARATOR, PARAGRAPH SEPARATOR. -/
theorem isBreak_iff (c : Char) : isBreak c = true ↔ c.toNat ∈ [0x0A, 0x0B, 0x0C, 0x0D, 0x1C, 0x1D, 0x1E, 0x85, 0x2028, 0x2029] := by
  simp only [isBreak, Bool.or_eq_true, Bool.and_eq_true, decide_eq_true_eq, beq_iff_eq, List.mem_cons, List.not_mem_nil, or_false]
  omega

/-- The white space: TAB, the line boundaries, US, SPACE, and what Unicode lists as space separators. -/
theorem isSpace_iff (c : Char) : isSpace c = true ↔
    isBreak c = true ∨ c.toNat ∈ [0x09, 0x1F, 0x20, 0xA0, 0x1680, 0x202F, 0x205F, 0x3000] ∨ (0x2000 ≤ c.toNat ∧ c.toNat ≤ 0x200A) := by
  simp only [isBreak, isSpace, Bool.or_eq_true, Bool.and_eq_true, decide_eq_true_eq, beq_iff_eq, List.mem_cons, List.not_mem_nil, or_false]
  omega

theorem isBreak_hash : isBreak '#' = false := by decide

theorem isBreak_space (c : Char) (h : isBreak c = true) : isSpace c = true := by
  simp only [isBreak, isSpace, Bool.or_eq_true, Bool.and_eq_true, decide_eq_true_eq, beq_iff_eq] at h ⊢
  omega

theorem scan_line (com : Bool) (tok : Str) (line : List Str) (l : Str) (hl : ∀ c ∈ l, isBreak c = false) (rest : Str)
    (hr : rest = [] ∨ ∃ b cs, rest = b :: cs ∧ isBreak b = true) :
    scan com tok line (l ++ rest) =
      flush (line ++ if com then finish [] tok else splitAux tok (dropComment l)) (match rest with | [] => [] | _ :: cs => scan false [] [] cs) := by
  induction l generalizing com tok line with
  | nil =>
    have hs : (if com then finish [] tok else splitAux tok (dropComment [])) = finish [] tok := by
      cases com
      · cases tok <;> simp [dropComment, splitAux, finish]
      · rfl
    rw [List.nil_append, hs]
    rcases hr with rfl | ⟨b, cs, rfl, hb⟩
    · simp [scan, finish]
    · simp [scan, hb, finish]
  | cons c l ih =>
    have hc := hl c (by simp)
    have hl' : ∀ c ∈ l, isBreak c = false := fun x hx => hl x (List.mem_cons_of_mem _ hx)
    rw [List.cons_append]
    simp only [scan, hc, Bool.false_eq_true, if_false]
    cases com with
    | true =>
      simp only [if_true]
      rw [ih true tok line hl']
      simp
    | false =>
      simp only [Bool.false_eq_true, if_false]
      by_cases hh : c = '#'
      · subst hh
        simp only [if_true]
        rw [ih true [] (finish line tok) hl']
        congr 1
        cases tok <;> simp [finish, dropComment, splitAux]
      · simp only [hh, if_false]
        have hd : dropComment (c :: l) = c :: dropComment l := by simp [dropComment, hh]
        rw [hd]
        simp only [splitAux]
        by_cases hs : isSpace c = true
        · simp only [hs, if_true]
          rw [ih false [] (finish line tok) hl']
          congr 1
          cases tok <;> simp [finish]
        · simp only [hs, if_false]
          rw [ih false (c :: tok) line hl']
          simp

theorem splitlinesAux_scan (cur s : Str) (hcur : ∀ c ∈ cur, isBreak c = false) :
    (splitlinesAux cur s).flatMap lineTokens = scan false [] [] (cur.reverse ++ s) := by
  fun_induction splitlinesAux cur s with
  | case1 => rfl
  | case2 cur h =>
    have := scan_line false [] [] cur.reverse (by simpa using hcur) [] (.inl rfl)
    rw [this]
    simp [lineTokens, split]
  | case3 cur cs ih =>
    have := scan_line false [] [] cur.reverse (by simpa using hcur) ('\r' :: '\n' :: cs) (.inr ⟨_, _, rfl, by decide⟩)
    rw [this, List.flatMap_cons, ih (by simp)]
    have h2 : scan false [] [] ('\n' :: cs) = scan false [] [] cs := by
      simp [scan, show isBreak '\n' = true by decide, finish, flush]
    simp only [h2, lineTokens, split, List.reverse_nil, List.nil_append]
    simp only [flush]
    split <;> rename_i hz <;> simp [hz]
  | case4 cur c cs _ hb ih =>
    have := scan_line false [] [] cur.reverse (by simpa using hcur) (c :: cs) (.inr ⟨_, _, rfl, hb⟩)
    rw [this, List.flatMap_cons, ih (by simp)]
    simp only [lineTokens, split, List.reverse_nil, List.nil_append]
    simp only [flush]
    split <;> rename_i hz <;> simp [hz]
  | case5 cur c cs _ hb ih =>
    rw [ih (by
      intro x hx
      rcases List.mem_cons.1 hx with rfl | hx
      · simpa using hb
      · exact hcur x hx)]
    simp

theorem stream_scan (text : Str) : stream text = scan false [] [] text := by
  unfold stream tokenize splitlines
  rw [tokenizeLines_snd, splitlinesAux_scan [] text (by simp)]
  rfl

/-! ## The state after a prefix -/

/-- What has been produced, and the state, after some characters. -/
theorem scan_append (a : Str) (com : Bool) (tok : Str) (line : List Str) (hct : com = true → tok = []) :
    ∃ pre com' tok' line', (com' = true → tok' = []) ∧ (∀ x, scan com tok line (a ++ x) = pre ++ scan com' tok' line' x) ∧
      (∀ c, a.getLast? = some c → isBreak c = true → com' = false ∧ tok' = [] ∧ line' = []) ∧
      (∀ c, a.getLast? = some c → isSpace c = true → tok' = []) ∧
      (a = [] → com' = com ∧ tok' = tok ∧ line' = line) := by
  induction a generalizing com tok line with
  | nil => exact ⟨[], com, tok, line, hct, fun x => rfl, by simp, by simp, fun _ => ⟨rfl, rfl, rfl⟩⟩
  | cons c a ih =>
    have step : ∃ pre1 com1 tok1 line1, (com1 = true → tok1 = []) ∧ (∀ x, scan com tok line (c :: x) = pre1 ++ scan com1 tok1 line1 x) ∧
        (isBreak c = true → com1 = false ∧ tok1 = [] ∧ line1 = []) ∧ (isSpace c = true → tok1 = []) := by
      by_cases hb : isBreak c = true
      · refine ⟨flush (finish line tok) [], false, [], [], by simp, fun x => ?_, fun _ => ⟨rfl, rfl, rfl⟩, fun _ => rfl⟩
        simp only [scan, hb, if_true, flush]
        split <;> simp
      · cases com with
        | true => exact ⟨[], true, tok, line, hct, fun x => by simp [scan, hb], fun h => absurd h hb, fun _ => hct rfl⟩
        | false =>
          by_cases hh : c = '#'
          · subst hh
            exact ⟨[], true, [], finish line tok, fun _ => rfl, fun x => by simp [scan, hb], fun h => absurd h hb, fun _ => rfl⟩
          · by_cases hs : isSpace c = true
            · exact ⟨[], false, [], finish line tok, fun _ => rfl, fun x => by simp [scan, hb, hh, hs], fun h => absurd h hb, fun _ => rfl⟩
            · exact ⟨[], false, c :: tok, line, by simp, fun x => by simp [scan, hb, hh, hs], fun h => absurd h hb, fun h => absurd h hs⟩
    obtain ⟨pre1, com1, tok1, line1, h1, h2, h3, h4⟩ := step
    obtain ⟨pre, com', tok', line', g1, g2, g3, g4, g5⟩ := ih com1 tok1 line1 h1
    refine ⟨pre1 ++ pre, com', tok', line', g1, fun x => by rw [List.cons_append, h2, g2, List.append_assoc], ?_, ?_, by simp⟩
    · intro d hd hb
      cases a with
      | nil =>
        simp only [List.getLast?_singleton, Option.some.injEq] at hd
        subst hd
        obtain ⟨e1, e2, e3⟩ := g5 rfl
        rw [e1, e2, e3]
        exact h3 hb
      | cons y ys => exact g3 d (by simpa [List.getLast?_cons_cons] using hd) hb
    · intro d hd hs
      cases a with
      | nil =>
        simp only [List.getLast?_singleton, Option.some.injEq] at hd
        subst hd
        rw [(g5 rfl).2.1]
        exact h4 hs
      | cons y ys => exact g4 d (by simpa [List.getLast?_cons_cons] using hd) hs

/-! ## C57 -/

/-- The end of a line: the end of the text, or a line boundary. -/
def AtLineEnd (rest : Str) : Prop := rest = [] ∨ ∃ c cs, rest = c :: cs ∧ isBreak c = true

/-- The beginning of a line. -/
def AtLineStart (before : Str) : Prop := before = [] ∨ ∃ c, before.getLast? = some c ∧ isBreak c = true

/-- Next to white space, a comment or the ends of the text. -/
def NextToSpace (before rest : Str) : Prop :=
  before = [] ∨ (∃ c, before.getLast? = some c ∧ isSpace c = true) ∨ rest = [] ∨ ∃ c cs, rest = c :: cs ∧ (isSpace c = true ∨ c = '#')

/-- Text without line boundaries. -/
def OneLine (s : Str) : Prop := ∀ c ∈ s, isBreak c = false

/-- White space without line boundaries. -/
def Blanks (s : Str) : Prop := ∀ c ∈ s, isSpace c = true ∧ isBreak c = false

/-- Adding layout. -/
inductive Adds : Str → Str → Prop where
  | comment (a c b : Str) : OneLine c → AtLineEnd b → Adds (a ++ b) (a ++ '#' :: c ++ b)
  | blankLine (a w : Str) (nl : Char) (b : Str) : Blanks w → isBreak nl = true → AtLineStart a → Adds (a ++ b) (a ++ w ++ nl :: b)
  | commentLine (a w c : Str) (nl : Char) (b : Str) : Blanks w → OneLine c → isBreak nl = true → AtLineStart a →
      Adds (a ++ b) (a ++ w ++ '#' :: c ++ nl :: b)
  | blanks (a w b : Str) : Blanks w → NextToSpace a b → Adds (a ++ b) (a ++ w ++ b)

/-- Two texts that differ in layout only. -/
inductive SameLayout : Str → Str → Prop where
  | refl (s : Str) : SameLayout s s
  | add {s t u : Str} : SameLayout s t → Adds t u → SameLayout s u
  | remove {s t u : Str} : SameLayout s t → Adds u t → SameLayout s u

theorem scan_comment_line (tok : Str) (line : List Str) (c : Str) (hc : OneLine c) (b : Str) : scan true tok line (c ++ b) = scan true tok line b := by
  induction c with
  | nil => rfl
  | cons x c ih =>
    have hx : isBreak x = false := hc x (by simp)
    rw [List.cons_append]
    simp only [scan, hx, Bool.false_eq_true, if_false, if_true]
    exact ih (fun y hy => hc y (List.mem_cons_of_mem _ hy))

theorem finish_finish (line : List Str) (tok : Str) : finish (finish line tok) [] = finish line tok := by simp [finish]

/-- At the end of a line it does not matter whether one is in a comment. -/
theorem scan_end (com com' : Bool) (tok : Str) (line : List Str) (b : Str) (hb : AtLineEnd b) :
    scan com tok line b = scan com' [] (finish line tok) b := by
  rcases hb with rfl | ⟨c, cs, rfl, hc⟩
  · simp [scan, finish_finish]
  · simp [scan, hc, finish_finish]

theorem scan_blanks (com : Bool) (line : List Str) (w : Str) (hw : Blanks w) (b : Str) : scan com [] line (w ++ b) = scan com [] line b := by
  induction w with
  | nil => rfl
  | cons x w ih =>
    obtain ⟨hx, hx'⟩ := hw x (by simp)
    rw [List.cons_append]
    have hh : x ≠ '#' := by intro h; subst h; simp [isSpace_hash] at hx
    have hw' : Blanks w := fun y hy => hw y (List.mem_cons_of_mem _ hy)
    cases com <;> simp [scan, hx, hx', hh, finish, ih hw']

theorem adds_stream (s t : Str) (h : Adds s t) : stream t = stream s := by
  rw [stream_scan, stream_scan]
  cases h with
  | comment a c b hc hb =>
    obtain ⟨pre, com, tok, line, h1, h2, _⟩ := scan_append a false [] [] (by simp)
    rw [List.append_assoc, h2, h2, List.cons_append]
    congr 1
    cases com with
    | true =>
      have := h1 rfl
      subst this
      rw [show '#' :: (c ++ b) = ('#' :: c) ++ b from rfl]
      apply scan_comment_line
      intro x hx
      rcases List.mem_cons.1 hx with rfl | hx
      · exact isBreak_hash
      · exact hc x hx
    | false =>
      simp only [scan, isBreak_hash, Bool.false_eq_true, if_false, if_true]
      rw [scan_comment_line _ _ _ hc]
      exact (scan_end false true tok line b hb).symm
  | blankLine a w nl b hw hnl ha =>
    obtain ⟨pre, com, tok, line, h1, h2, h3, _, h5⟩ := scan_append a false [] [] (by simp)
    have hst : com = false ∧ tok = [] ∧ line = [] := by
      rcases ha with ha | ⟨c, hc, hcb⟩
      · exact h5 ha
      · exact h3 c hc hcb
    obtain ⟨rfl, rfl, rfl⟩ := hst
    rw [List.append_assoc, h2, h2, scan_blanks _ _ _ hw]
    simp [scan, hnl, finish, flush]
  | commentLine a w c nl b hw hc hnl ha =>
    obtain ⟨pre, com, tok, line, h1, h2, h3, _, h5⟩ := scan_append a false [] [] (by simp)
    have hst : com = false ∧ tok = [] ∧ line = [] := by
      rcases ha with ha | ⟨c, hc, hcb⟩
      · exact h5 ha
      · exact h3 c hc hcb
    obtain ⟨rfl, rfl, rfl⟩ := hst
    rw [List.append_assoc, List.append_assoc, h2, h2, scan_blanks _ _ _ hw, List.cons_append]
    simp only [scan, isBreak_hash, Bool.false_eq_true, if_false, if_true]
    rw [scan_comment_line _ _ _ hc]
    simp [scan, hnl, finish, flush]
  | blanks a w b hw hn =>
    obtain ⟨pre, com, tok, line, h1, h2, _, h4, h5⟩ := scan_append a false [] [] (by simp)
    rw [List.append_assoc, h2, h2]
    congr 1
    have key : tok = [] → scan com tok line (w ++ b) = scan com tok line b := by
      intro ht; subst ht; exact scan_blanks _ _ _ hw b
    cases w with
    | nil => rfl
    | cons x w =>
      cases com with
      | true => exact key (h1 rfl)
      | false =>
        rcases hn with ha | ⟨c, hc, hcs⟩ | hb | ⟨c, cs, hb, hc⟩
        · exact key (h5 ha).2.1
        · exact key (h4 c hc hcs)
        all_goals
          obtain ⟨hx, hx'⟩ := hw x (by simp)
          have hh : x ≠ '#' := by intro h; subst h; simp [isSpace_hash] at hx
          have e : scan false tok line (x :: w ++ b) = scan false [] (finish line tok) b := by
            rw [List.cons_append]
            simp only [scan, hx', hh, hx, Bool.false_eq_true, if_false, if_true]
            exact scan_blanks _ _ _ (fun y hy => hw y (List.mem_cons_of_mem _ hy)) b
          rw [e]
        · exact (scan_end false false tok line b (.inl hb)).symm
        · subst hb
          by_cases hcb : isBreak c = true
          · exact (scan_end false false tok line _ (.inr ⟨c, cs, rfl, hcb⟩)).symm
          · rcases hc with hc | rfl
            · have hh2 : c ≠ '#' := by intro h; subst h; simp [isSpace_hash] at hc
              simp [scan, hcb, hh2, hc, finish_finish]
            · simp [scan, hcb, finish_finish]

/-- Layout does not affect the tokens. -/
theorem C57_layout (s t : Str) (h : SameLayout s t) : (tokenize s).map Prod.snd = (tokenize t).map Prod.snd := by
  show stream s = stream t
  induction h with
  | refl => rfl
  | add _ ha ih => rw [ih, ← adds_stream _ _ ha]
  | remove _ ha ih => rw [ih, adds_stream _ _ ha]

/-! What the tokens are: a text written from tokens gives back these tokens, with the numbers of their lines. -/

/-- A token: not empty, without white space and comment signs. -/
def IsToken (w : Str) : Prop := w ≠ [] ∧ ∀ c ∈ w, isSpace c = false ∧ c ≠ '#'

/-- Tokens separated by single blanks. -/
def writeLine : List Str → Str
  | [] => []
  | [w] => w
  | w :: ws => w ++ ' ' :: writeLine ws

/-- Lines, each ended by a newline character. -/
def writeText : List (List Str) → Str
  | [] => []
  | l :: ls => writeLine l ++ '\n' :: writeText ls

/-- The lines that are not empty, with their numbers. -/
def numbered : Nat → List (List Str) → List (Nat × List Str)
  | _, [] => []
  | n, l :: ls => if l = [] then numbered (n + 1) ls else (n, l) :: numbered (n + 1) ls

theorem splitAux_token (w : Str) (h : ∀ c ∈ w, isSpace c = false) (cur s : Str) : splitAux cur (w ++ s) = splitAux (w.reverse ++ cur) s := by
  induction w generalizing cur with
  | nil => rfl
  | cons c w ih =>
    have hc := h c (by simp)
    rw [List.cons_append]
    simp only [splitAux, hc, Bool.false_eq_true, if_false]
    rw [ih (fun x hx => h x (List.mem_cons_of_mem _ hx))]
    simp

theorem split_writeLine (l : List Str) (h : ∀ w ∈ l, IsToken w) : split (writeLine l) = l := by
  unfold split
  induction l with
  | nil => rfl
  | cons w ws ih =>
    obtain ⟨hne, hw⟩ := h w (by simp)
    have hws : ∀ c ∈ w, isSpace c = false := fun c hc => (hw c hc).1
    cases ws with
    | nil =>
      have := splitAux_token w hws [] []
      simp only [List.append_nil] at this
      simp only [writeLine, this]
      cases hr : w.reverse with
      | nil => simp at hr; exact absurd hr hne
      | cons x xs => simp [splitAux, ← hr]
    | cons w2 ws =>
      simp only [writeLine]
      rw [splitAux_token w hws]
      simp only [splitAux, show isSpace ' ' = true by decide, if_true, List.append_nil]
      rw [if_neg (by simpa using hne), List.reverse_reverse]
      have := ih (fun x hx => h x (List.mem_cons_of_mem _ hx))
      rw [this]

theorem writeLine_chars (l : List Str) (h : ∀ w ∈ l, IsToken w) : ∀ c ∈ writeLine l, c ≠ '#' ∧ isBreak c = false := by
  induction l with
  | nil => simp [writeLine]
  | cons w ws ih =>
    obtain ⟨_, hw⟩ := h w (by simp)
    have h1 : ∀ c ∈ w, c ≠ '#' ∧ isBreak c = false := by
      intro c hc
      refine ⟨(hw c hc).2, ?_⟩
      cases hb : isBreak c with
      | false => rfl
      | true => have := isBreak_space c hb; rw [(hw c hc).1] at this; simp at this
    cases ws with
    | nil => simpa [writeLine] using h1
    | cons w2 ws =>
      intro c hc
      simp only [writeLine, List.mem_append, List.mem_cons] at hc
      rcases hc with hc | rfl | hc
      · exact h1 c hc
      · decide
      · exact ih (fun x hx => h x (List.mem_cons_of_mem _ hx)) c (by simpa [writeLine] using hc)

theorem splitlinesAux_line (l : Str) (h : ∀ c ∈ l, isBreak c = false) (cur s : Str) :
    splitlinesAux cur (l ++ '\n' :: s) = (cur.reverse ++ l) :: splitlinesAux [] s := by
  induction l generalizing cur with
  | nil =>
    have : isBreak '\n' = true := by decide
    cases cur <;> simp [splitlinesAux, this]
  | cons c l ih =>
    have hc := h c (by simp)
    have hcr : c ≠ '\r' := by intro e; subst e; revert hc; decide
    rw [List.cons_append, splitlinesAux]
    · simp only [hc, Bool.false_eq_true, if_false]
      rw [ih (fun x hx => h x (List.mem_cons_of_mem _ hx))]
      simp
    · intro cs' h1 _; exact hcr h1

theorem splitlines_writeText (ls : List (List Str)) (h : ∀ l ∈ ls, ∀ w ∈ l, IsToken w) : splitlines (writeText ls) = ls.map writeLine := by
  unfold splitlines
  induction ls with
  | nil => rfl
  | cons l ls ih =>
    rw [writeText, splitlinesAux_line _ (fun c hc => (writeLine_chars l (h l (by simp)) c hc).2), ih (fun x hx => h x (List.mem_cons_of_mem _ hx))]
    simp

/-- A text written from tokens gives back these tokens and the numbers of their lines. -/
theorem C57_tokens (ls : List (List Str)) (h : ∀ l ∈ ls, ∀ w ∈ l, IsToken w) : tokenize (writeText ls) = numbered 1 ls := by
  unfold tokenize
  rw [splitlines_writeText ls h]
  generalize hn : (0 : Nat) = n
  rw [show 1 = n + 1 by omega]
  clear hn
  induction ls generalizing n with
  | nil => rfl
  | cons l ls ih =>
    have hl := h l (by simp)
    have hd : dropComment (writeLine l) = writeLine l := by
      unfold dropComment
      apply takeWhile_all
      intro c hc
      simpa using (writeLine_chars l hl c hc).1
    simp only [List.map_cons, tokenizeLines, numbered, hd, split_strip, split_writeLine l hl]
    have hf : l.filter (· ≠ []) = l := List.filter_eq_self.2 (fun w hw => by simpa using (hl w hw).1)
    have hs : strip (writeLine l) = [] ↔ l = [] := by rw [strip_eq_nil, split_writeLine l hl]
    rw [ih (fun x hx => h x (List.mem_cons_of_mem _ hx)), hf]
    by_cases he : l = []
    · rw [if_pos he, if_neg (fun hn => hn (hs.2 he))]
    · rw [if_neg he, if_pos (fun hn => he (hs.1 hn))]

instance (s : Str) : Decidable (OneLine s) := List.decidableBAll (p := fun c => isBreak c = false) (l := s)
instance (s : Str) : Decidable (Blanks s) := List.decidableBAll (p := fun c => isSpace c = true ∧ isBreak c = false) (l := s)

/-- Text of a literal. -/
def str (s : String) : Str := s.toList

example : SameLayout (str "uint8 a\nbool b") (str "  uint8   a # first\n\n# note\nbool b") := by
  have h0 := SameLayout.refl (str "uint8 a\nbool b")
  have h1 := h0.add (Adds.comment (str "uint8 a") (str " first") (str "\nbool b") (by decide +kernel) (.inr ⟨_, _, rfl, by decide⟩))
  have h2 := h1.add (Adds.commentLine (str "uint8 a# first\n") [] (str " note") '\n' (str "bool b") (by decide +kernel) (by decide +kernel)
    (by decide) (.inr ⟨'\n', by decide +kernel, by decide⟩))
  have h3 := h2.add (Adds.blankLine (str "uint8 a# first\n") [] '\n' (str "# note\nbool b") (by decide +kernel) (by decide)
    (.inr ⟨'\n', by decide +kernel, by decide⟩))
  have h4 := h3.add (Adds.blanks (str "uint8 a") (str " ") (str "# first\n\n# note\nbool b") (by decide +kernel) (.inr (.inr (.inr ⟨_, _, rfl, .inr rfl⟩))))
  have h5 := h4.add (Adds.blanks (str "uint8 ") (str "  ") (str "a # first\n\n# note\nbool b") (by decide +kernel)
    (.inr (.inl ⟨' ', by decide +kernel, by decide⟩)))
  exact h5.add (Adds.blanks [] (str "  ") (str "uint8   a # first\n\n# note\nbool b") (by decide +kernel) (.inl rfl))

example : tokenize (str "  uint8   a # first\n\n# note\nbool b") = [(1, [str "uint8", str "a"]), (4, [str "bool", str "b"])] := by decide +kernel

end Text
end Dronecan
