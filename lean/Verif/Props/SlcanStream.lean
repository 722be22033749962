import Verif.Model.Slcan

/-!
# SLCAN reception: the byte stream (C48)
-/

namespace Dronecan
namespace Slcan
open Can

variable {σ : Type} (env : REnv σ)

/-! ## Specification -/

/-- The lines of a stream: each carriage return ends one; `acc` is the beginning of the current line. -/
def linesOf (acc : List Byte) : List Byte → List (List Byte)
  | [] => []
  | c :: cs => if c = 13 then acc :: linesOf [] cs else linesOf (acc ++ [c]) cs

/-- What follows the last carriage return. -/
def restOf (acc : List Byte) : List Byte → List Byte
  | [] => acc
  | c :: cs => if c = 13 then restOf [] cs else restOf (acc ++ [c]) cs

/-- The frame that a line stands for, if it is a well-formed frame line. -/
def frameOf (line : List Byte) : Option CANFrame :=
  match parseLine line with
  | .ok (some p) => some p.frame
  | _ => none

/-- The frame in an item of the output queue. -/
def itemFrame : Item → Option CANFrame
  | .frame f _ => some f
  | _ => none

/-- The frames in the output queue. -/
def framesOf (out : List Item) : List CANFrame := out.filterMap itemFrame

/-- The frames of the lines that have been processed, whether or not their time stamps could be estimated. -/
def heard (seen : List (Parsed × Option Stamp)) : List CANFrame := seen.map fun x => x.1.frame

/-- The frame in an item of the output queue, with its time stamps. -/
def itemStamped : Item → Option (CANFrame × Stamp)
  | .frame f ts => some (f, ts)
  | _ => none

/-- The frames in the output queue, with their time stamps. -/
def stampedOf (out : List Item) : List (CANFrame × Stamp) := out.filterMap itemStamped

/-- No frame has been lost because a time stamp estimator raised. -/
def NoneLost (s : Rx σ) : Prop := ∀ x ∈ s.seen, x.2 ≠ none

/-- All the bytes read. -/
def bytesOf (reads : List Read) : List Byte := reads.flatMap (·.new)

/-! ## Lemmas -/

theorem splitOn_ne_nil (sep : Byte) (p : List Byte) : splitOn sep p ≠ [] := by
  cases p with
  | nil => simp [splitOn]
  | cons c cs =>
    simp only [splitOn]
    split
    · simp
    · split <;> simp

/-- Splitting with a beginning already seen. -/
theorem splitOn_scan (l : List Byte) : ∀ acc : List Byte, CR ∉ acc →
    splitOn CR (acc ++ l) = linesOf acc l ++ [restOf acc l] := by
  have pre : ∀ (acc : List Byte), CR ∉ acc → ∀ l, splitOn CR (acc ++ l) =
      match splitOn CR l with
      | [] => [acc]
      | h :: t => (acc ++ h) :: t := by
    intro acc
    induction acc with
    | nil =>
      intro _ l
      cases h : splitOn CR l with
      | nil => exact absurd h (splitOn_ne_nil _ _)
      | cons a b => simp [h]
    | cons a acc ih =>
      intro hacc l
      simp only [List.mem_cons, not_or] at hacc
      simp only [List.cons_append, splitOn, if_neg (Ne.symm hacc.1)]
      rw [ih hacc.2]
      cases h : splitOn CR l with
      | nil => exact absurd h (splitOn_ne_nil _ _)
      | cons a b => rfl
  induction l with
  | nil =>
    intro acc hacc
    rw [pre acc hacc]
    simp [splitOn, linesOf, restOf]
  | cons c l ih =>
    intro acc hacc
    by_cases hc : c = CR
    · subst hc
      rw [pre acc hacc]
      have := ih [] (by simp)
      rw [List.nil_append] at this
      simp only [splitOn, if_true, linesOf, restOf, show CR = (13 : Byte) from rfl, this, List.append_nil]
      rw [show (13 : Byte) = CR from rfl, this]
      simp
    · have := ih (acc ++ [c]) (by simp only [List.mem_append, List.mem_singleton, not_or]; exact ⟨hacc, Ne.symm hc⟩)
      rw [List.append_assoc] at this
      simp only [List.singleton_append] at this
      have hc' : ¬ c = 13 := hc
      simp only [linesOf, restOf, if_neg hc', this]

theorem splitOn_lines (l : List Byte) : unsnoc (splitOn CR l) = (linesOf [] l, restOf [] l) := by
  have := splitOn_scan l [] (by simp)
  rw [List.nil_append] at this
  rw [this, unsnoc, List.dropLast_concat, List.getLastD_concat]

theorem restOf_no_cr (l : List Byte) : ∀ acc, CR ∉ acc → CR ∉ restOf acc l := by
  induction l with
  | nil => intro acc h; exact h
  | cons c l ih =>
    intro acc h
    simp only [restOf]
    split
    · exact ih [] (by simp)
    · rename_i hc
      exact ih _ (by simp only [List.mem_append, List.mem_singleton, not_or]; exact ⟨h, fun e => hc e.symm⟩)

theorem linesOf_append (a b : List Byte) : ∀ acc, linesOf acc (a ++ b) = linesOf acc a ++ linesOf (restOf acc a) b := by
  induction a with
  | nil => intro acc; rfl
  | cons c a ih =>
    intro acc
    simp only [List.cons_append, linesOf, restOf]
    split
    · rw [ih]; rfl
    · exact ih _

theorem restOf_append (a b : List Byte) : ∀ acc, restOf acc (a ++ b) = restOf (restOf acc a) b := by
  induction a with
  | nil => intro acc; rfl
  | cons c a ih =>
    intro acc
    simp only [List.cons_append, restOf]
    split
    · exact ih _
    · exact ih _

theorem linesOf_plain (a : List Byte) (ha : CR ∉ a) (l : List Byte) : ∀ acc,
    linesOf acc (a ++ l) = linesOf (acc ++ a) l ∧ restOf acc (a ++ l) = restOf (acc ++ a) l := by
  induction a with
  | nil => intro acc; simp
  | cons c a ih =>
    intro acc
    simp only [List.mem_cons, not_or] at ha
    have hc : ¬ c = 13 := fun e => ha.1 e.symm
    have := ih ha.2 (acc ++ [c])
    simp only [List.cons_append, linesOf, restOf, if_neg hc]
    rw [this.1, this.2]
    simp

theorem framesOf_append (a b : List Item) : framesOf (a ++ b) = framesOf a ++ framesOf b := List.filterMap_append

/-- Processing lines: only the output and the estimators change. -/
theorem processLines_spec (ts : Stamp) (lines : List (List Byte)) : ∀ s : Rx σ,
    heard (processLines env ts s lines).seen = heard s.seen ++ lines.filterMap frameOf ∧
    (processLines env ts s lines).data = s.data ∧ (processLines env ts s lines).cmd = s.cmd ∧
    (processLines env ts s lines).resp = s.resp ∧ (processLines env ts s lines).pending = s.pending := by
  induction lines with
  | nil => intro s; simp [processLines]
  | cons line lines ih =>
    intro s
    have h1 : heard (processLine env ts s line).seen = heard s.seen ++ (frameOf line).toList ∧
        (processLine env ts s line).data = s.data ∧ (processLine env ts s line).cmd = s.cmd ∧
        (processLine env ts s line).resp = s.resp ∧ (processLine env ts s line).pending = s.pending := by
      cases hp : parseLine line with
      | error e => simp [processLine, frameOf, hp]
      | ok o =>
        cases o with
        | none => simp [processLine, frameOf, hp]
        | some p =>
          cases ht : p.hwTs with
          | none => simp [processLine, frameOf, hp, ht, heard]
          | some hw =>
            cases hu : env.update s.est hw ts with
            | mk u est => cases u <;> simp [processLine, frameOf, hp, ht, hu, heard]
    obtain ⟨a1, a2, a3, a4, a5⟩ := ih (processLine env ts s line)
    obtain ⟨b1, b2, b3, b4, b5⟩ := h1
    refine ⟨?_, a2.trans b2, a3.trans b3, a4.trans b4, a5.trans b5⟩
    show heard (processLines env ts (processLine env ts s line) lines).seen = _
    rw [a1, b1]
    cases hf : frameOf line <;> simp [hf]

/-- The worker is in its normal mode: no command is being executed, and none is waiting. -/
def Normal (s : Rx σ) : Prop := s.cmd = none ∧ s.pending = []

theorem checkCommands_normal (now : Int) (s : Rx σ) (h : Normal s) : checkCommands now s = s := by
  obtain ⟨h1, h2⟩ := h
  unfold checkCommands
  rw [h1, h2]
  simp only [checkCommands.fetch]
  cases s
  simp_all

theorem iteration_normal (s : Rx σ) (h : Normal s) (new : List Byte) (ts : Stamp) (now : Int) :
    iteration env s new ts now =
      processLines env ts { s with data := restOf [] (s.data ++ new) } (linesOf [] (s.data ++ new)) := by
  unfold iteration
  have : Normal { s with data := s.data ++ new } := h
  rw [checkCommands_normal now _ this]
  simp only [h.1, splitOn_lines]

/-- While no commands are executed, whatever the reads are: the frames delivered are those of the lines of the whole
stream, in order, and what is kept is what follows the last carriage return. -/
theorem C48_stream_partial (s : Rx σ) (h : Normal s) (hd : CR ∉ s.data) (reads : List Read) (hr : ∀ r ∈ reads, r.cmds = []) :
    heard (run env s reads).seen = heard s.seen ++ (linesOf s.data (bytesOf reads)).filterMap frameOf ∧
    (run env s reads).data = restOf s.data (bytesOf reads) ∧ Normal (run env s reads) := by
  induction reads generalizing s with
  | nil => exact ⟨by simp [run, bytesOf, linesOf], rfl, h⟩
  | cons r reads ih =>
    have hrc : r.cmds = [] := hr r List.mem_cons_self
    have hs : ({ s with pending := s.pending ++ r.cmds } : Rx σ) = s := by rw [hrc, List.append_nil]
    have hrun : run env s (r :: reads) = run env (iteration env s r.new r.ts r.now) reads := by
      show run env (iteration env { s with pending := s.pending ++ r.cmds } r.new r.ts r.now) reads = _
      rw [hs]
    rw [hrun, iteration_normal env s h]
    obtain ⟨p1, p2, p3, p4, p5⟩ := processLines_spec env r.ts (linesOf [] (s.data ++ r.new))
      { s with data := restOf [] (s.data ++ r.new) }
    obtain ⟨l1, l2⟩ := linesOf_plain s.data hd r.new []
    rw [List.nil_append] at l1 l2
    have hb : bytesOf (r :: reads) = r.new ++ bytesOf reads := rfl
    obtain ⟨i1, i2, i3⟩ := ih _ ⟨p3.trans h.1, p5.trans h.2⟩
      (by rw [p2]; exact restOf_no_cr _ _ (by simp)) (fun r hr' => hr r (List.mem_cons_of_mem _ hr'))
    refine ⟨?_, ?_, i3⟩
    · rw [i1, p1, p2, hb, linesOf_append r.new (bytesOf reads) s.data, ← l1, ← l2, List.filterMap_append, List.append_assoc]
    · rw [i2, p2, hb, restOf_append r.new (bytesOf reads) s.data, ← l2]

/-- So it does not matter how the stream is split into reads, or when they happen. -/
theorem C48_split_partial (s s' : Rx σ) (h : Normal s) (h' : Normal s') (hd : CR ∉ s.data) (hd' : s'.data = s.data)
    (reads reads' : List Read) (hr : ∀ r ∈ reads, r.cmds = []) (hr' : ∀ r ∈ reads', r.cmds = [])
    (hb : bytesOf reads = bytesOf reads') (ho : heard s.seen = heard s'.seen) :
    heard (run env s reads).seen = heard (run env s' reads').seen ∧ (run env s reads).data = (run env s' reads').data := by
  obtain ⟨a1, a2, -⟩ := C48_stream_partial env s h hd reads hr
  obtain ⟨b1, b2, -⟩ := C48_stream_partial env s' h' (hd' ▸ hd) reads' hr'
  exact ⟨by rw [a1, b1, hd', hb, ho], by rw [a2, b2, hd', hb]⟩

/-- A malformed line affects no other line: the stream without it gives the same frames, and exactly the same state if
both arrive in one read. -/
theorem C48_malformed_partial (s : Rx σ) (h : Normal s) (a bad b : List Byte) (hbad : CR ∉ bad)
    (he : ∃ e, parseLine bad = .error e) (ts : Stamp) (now : Int) :
    (linesOf [] (a ++ [CR] ++ bad ++ [CR] ++ b)).filterMap frameOf = (linesOf [] (a ++ [CR] ++ b)).filterMap frameOf ∧
    iteration env s (a ++ [CR] ++ bad ++ [CR] ++ b) ts now = iteration env s (a ++ [CR] ++ b) ts now := by
  obtain ⟨e, he⟩ := he
  have hrest : ∀ acc a, restOf acc (a ++ [CR]) = [] := fun acc a => by rw [restOf_append]; rfl
  have hbl : ∀ l, linesOf [] (bad ++ [CR] ++ l) = bad :: linesOf [] l := by
    intro l
    rw [List.append_assoc, (linesOf_plain bad hbad _ []).1]
    rfl
  have hl : ∀ acc, linesOf acc (a ++ [CR] ++ bad ++ [CR] ++ b) = linesOf acc (a ++ [CR]) ++ (bad :: linesOf [] b) ∧
      linesOf acc (a ++ [CR] ++ b) = linesOf acc (a ++ [CR]) ++ linesOf [] b := by
    intro acc
    refine ⟨?_, ?_⟩
    · rw [show a ++ [CR] ++ bad ++ [CR] ++ b = (a ++ [CR]) ++ (bad ++ [CR] ++ b) by simp, linesOf_append, hrest, hbl]
    · rw [linesOf_append, hrest]
  have hf : frameOf bad = none := by unfold frameOf; rw [he]
  refine ⟨?_, ?_⟩
  · rw [(hl []).1, (hl []).2, List.filterMap_append, List.filterMap_append, List.filterMap_cons, hf]
  · rw [iteration_normal env s h, iteration_normal env s h]
    have h1 : ∀ l, s.data ++ (a ++ [CR] ++ l) = (s.data ++ a) ++ [CR] ++ l := by simp
    have r1 : restOf [] (s.data ++ (a ++ [CR] ++ bad ++ [CR] ++ b)) = restOf [] (s.data ++ (a ++ [CR] ++ b)) := by
      rw [show s.data ++ (a ++ [CR] ++ bad ++ [CR] ++ b) = (s.data ++ a ++ [CR] ++ bad ++ [CR]) ++ b by simp,
        show s.data ++ (a ++ [CR] ++ b) = (s.data ++ a ++ [CR]) ++ b by simp, restOf_append, hrest, restOf_append, hrest]
    rw [r1]
    have l1 : linesOf [] (s.data ++ (a ++ [CR] ++ bad ++ [CR] ++ b)) =
        linesOf [] (s.data ++ a ++ [CR]) ++ (bad :: linesOf [] b) := by
      rw [show s.data ++ (a ++ [CR] ++ bad ++ [CR] ++ b) = (s.data ++ a ++ [CR]) ++ (bad ++ [CR] ++ b) by simp,
        linesOf_append, hrest, hbl]
    have l2 : linesOf [] (s.data ++ (a ++ [CR] ++ b)) = linesOf [] (s.data ++ a ++ [CR]) ++ linesOf [] b := by
      rw [show s.data ++ (a ++ [CR] ++ b) = (s.data ++ a ++ [CR]) ++ b by simp, linesOf_append, hrest]
    rw [l1, l2]
    unfold processLines
    rw [List.foldl_append, List.foldl_append, List.foldl_cons]
    congr 1
    simp only [processLine, he]

/-! ## The full statement, with commands -/

/-- C48 in full, for the worker as it is, with commands. First part: reads with the same bytes give the same frames. -/
def C48_statement : Prop :=
  ∀ (σ : Type) (env : REnv σ) (est : σ) (cmds : List Cmd) (reads reads' : List Read),
    bytesOf reads = bytesOf reads' → (∀ r ∈ reads, r.cmds = [] ∧ r.now = 0) → (∀ r ∈ reads', r.cmds = [] ∧ r.now = 0) →
    framesOf (run env { pending := cmds, est := est } reads).out = framesOf (run env { pending := cmds, est := est } reads').out

/-- The text of a command's echo, its end of text, and then a frame line ended by `\r\n`. -/
def cliThenFrame : List (List Byte) := ["?\r\n".toList.map ch ++ [ETX, CR, LF], "T000000010\r\n".toList.map ch]

/-- It is false: the read in which a command finishes treats its remaining lines as command output; if they arrive with
the next read, they are frames. -/
theorem C48_counterexample : ¬ C48_statement := by
  intro h
  have := h Unit ⟨fun _ _ ts => (some ts, ()), fun _ => true⟩ () [⟨"?".toList.map ch, 5⟩] [⟨cliThenFrame.flatten, (0, 0), 0, []⟩]
    (cliThenFrame.map fun b => ⟨b, (0, 0), 0, []⟩) (by decide +kernel) (by decide +kernel) (by decide +kernel)
  revert this
  decide +kernel

/-- And a line of command output that is not valid UTF-8 does affect others: the frame lines after it are lost. -/
theorem C48_malformed_counterexample :
    ∃ (env : REnv Unit) (s : Rx Unit) (bad : List Byte) (a b : List Byte),
      (framesOf (run env s [⟨a ++ b, (0, 0), 0, []⟩]).out).length = 1 ∧
      framesOf (run env s [⟨a ++ bad ++ [CR, LF] ++ b, (0, 0), 0, []⟩]).out = [] := by
  refine ⟨⟨fun _ _ ts => (some ts, ()), fun l => l.all fun b => b.toNat < 128⟩,
    { pending := [⟨"?".toList.map ch, 5⟩], est := () }, [0xFF], "?\r\n".toList.map ch,
    [ETX, CR, LF] ++ "T000000010\rX\r\n".toList.map ch, ?_⟩
  decide +kernel

/-! ## While a command is being executed -/

/-- The pieces of the stream while a command is executed: SLCAN lines end with a carriage return, lines of command output
with a carriage return and a line feed. -/
inductive Token
  | slc (line : List Byte)
  | cli (line : List Byte)
deriving DecidableEq

/-- The pieces of a stream. A carriage return at the very end may belong to either and is kept. -/
def scan (acc : List Byte) : List Byte → List Token
  | [] => []
  | [_] => []
  | c :: d :: cs =>
    if c = 13 then
      if d = 10 then .cli acc :: scan [] cs else .slc acc :: scan [] (d :: cs)
    else scan (acc ++ [c]) (d :: cs)

/-- What is kept. -/
def kept (acc : List Byte) : List Byte → List Byte
  | [] => acc
  | [c] => acc ++ [c]
  | c :: d :: cs =>
    if c = 13 then
      if d = 10 then kept [] cs else kept [] (d :: cs)
    else kept (acc ++ [c]) (d :: cs)

/-- The SLCAN line of a piece. -/
def slcOf : Token → Option (List Byte)
  | .slc l => some l
  | .cli _ => none

/-- The line of command output of a piece. -/
def cliOf : Token → Option (List Byte)
  | .slc _ => none
  | .cli l => some l

/-- Collecting the output of a command: everything from its echo to the end of text. `none`: it has ended. -/
def collect (text : List Byte) : Option (List (List Byte)) → List Byte → Option (List (List Byte))
  | none, _ => none
  | some [], line => if line = text then some [line] else some []
  | some (l :: ls), line => if line = [ETX] then none else some (l :: ls ++ [line])

/-! ### Lemmas -/

theorem collect_none (text : List Byte) (ls : List (List Byte)) : ls.foldl (collect text) none = none := by
  induction ls with
  | nil => rfl
  | cons l ls ih => exact ih

theorem splitCrLf_ne_nil (l : List Byte) : splitCrLf l ≠ [] := by
  fun_cases splitCrLf l <;> simp_all

theorem splitCrLf_single (c : Byte) (l h : List Byte) (e : splitCrLf (c :: l) = [h]) : h ≠ [] := by
  cases l with
  | nil => simp [splitCrLf] at e; simp [← e]
  | cons d l =>
    simp only [splitCrLf] at e
    split at e
    · have := splitCrLf_ne_nil l
      simp_all
    · split at e
      · simp at e; simp [← e]
      · simp at e; simp [← e.1]

/-- The pieces, from the parts between `\r\n`. -/
def tokensOf (acc : List Byte) : List (List Byte) → List Token
  | [] => []
  | [p] => (linesOf acc p.dropLast).map .slc
  | p :: q :: ps => (linesOf acc p).map .slc ++ .cli (restOf acc p) :: tokensOf [] (q :: ps)

/-- What is kept, from the parts. -/
def keptOf (acc : List Byte) : List (List Byte) → List Byte
  | [] => acc
  | [p] => restOf acc p.dropLast ++ p.drop (p.length - 1)
  | _ :: q :: ps => keptOf [] (q :: ps)

theorem tokensOf_scan (l : List Byte) (acc : List Byte) :
    tokensOf acc (splitCrLf l) = scan acc l ∧ keptOf acc (splitCrLf l) = kept acc l := by
  fun_induction scan acc l with
  | case1 acc => simp [splitCrLf, tokensOf, keptOf, linesOf, restOf, kept]
  | case2 acc c => simp [splitCrLf, tokensOf, keptOf, linesOf, restOf, kept]
  | case3 acc cs ih =>
    have : splitCrLf (13 :: 10 :: cs) = [] :: splitCrLf cs := by simp [splitCrLf, CR, LF]
    rw [this]
    cases hs : splitCrLf cs with
    | nil => exact absurd hs (splitCrLf_ne_nil _)
    | cons q ps =>
      rw [hs] at ih
      simp [tokensOf, keptOf, linesOf, restOf, kept, ih]
  | case4 acc d cs hd ih =>
    have hd8 : ¬ d = 10#8 := hd
    cases hs : splitCrLf (d :: cs) with
    | nil => exact absurd hs (splitCrLf_ne_nil _)
    | cons q ps =>
      have : splitCrLf (13 :: d :: cs) = (13 :: q) :: ps := by
        have hd' : ¬ d = LF := hd
        simp only [splitCrLf, hd', and_false, if_false, hs]
      rw [this]
      rw [hs] at ih
      cases ps with
      | nil =>
        have hq := splitCrLf_single _ _ _ hs
        cases q with
        | nil => exact absurd rfl hq
        | cons a q =>
          simp [tokensOf, keptOf] at ih
          simp [tokensOf, keptOf, linesOf, restOf, kept, hd8, ih]
      | cons p ps =>
        simp [tokensOf, keptOf] at ih
        simp [tokensOf, keptOf, linesOf, restOf, kept, hd8, ih]
  | case5 acc c d cs hc ih =>
    have hc8 : ¬ c = 13#8 := hc
    cases hs : splitCrLf (d :: cs) with
    | nil => exact absurd hs (splitCrLf_ne_nil _)
    | cons q ps =>
      have : splitCrLf (c :: d :: cs) = (c :: q) :: ps := by
        have hc' : ¬ c = CR := hc
        simp only [splitCrLf, hc', false_and, if_false, hs]
      rw [this]
      rw [hs] at ih
      cases ps with
      | nil =>
        have hq := splitCrLf_single _ _ _ hs
        cases q with
        | nil => exact absurd rfl hq
        | cons a q =>
          simp [tokensOf, keptOf] at ih
          simp [tokensOf, keptOf, linesOf, restOf, kept, hc8, ih]
      | cons p ps =>
        simp [tokensOf, keptOf] at ih
        simp [tokensOf, keptOf, linesOf, restOf, kept, hc8, ih]

theorem scan_plain (b l : List Byte) (hb : CR ∉ b) : ∀ acc,
    scan acc (b ++ l) = scan (acc ++ b) l ∧ kept acc (b ++ l) = kept (acc ++ b) l := by
  induction b with
  | nil => intro acc; simp
  | cons c b ih =>
    intro acc
    simp only [List.mem_cons, not_or] at hb
    have hc : ¬ c = 13 := fun e => hb.1 e.symm
    have := ih hb.2 (acc ++ [c])
    cases hbl : b ++ l with
    | nil =>
      simp only [List.append_eq_nil_iff] at hbl
      simp [hbl, scan, kept]
    | cons d cs =>
      rw [hbl] at this
      simp only [List.cons_append, hbl, scan, kept, if_neg hc, this]
      simp

theorem scan_append (a b : List Byte) (acc : List Byte) (hacc : CR ∉ acc) :
    scan acc (a ++ b) = scan acc a ++ scan [] (kept acc a ++ b) ∧ kept acc (a ++ b) = kept [] (kept acc a ++ b) := by
  fun_induction scan acc a with
  | case1 acc =>
    have := scan_plain acc b hacc []
    simp only [List.nil_append] at this
    simp [kept, this]
  | case2 acc c =>
    have := scan_plain acc (c :: b) hacc []
    simp only [List.nil_append] at this
    simp [kept, this]
  | case3 acc cs ih =>
    have := ih (by simp)
    simp [scan, kept, this]
  | case4 acc d cs hd ih =>
    have hd8 : ¬ d = 10#8 := hd
    have := ih (by simp)
    simp only [List.cons_append] at this
    simp [scan, kept, hd8, this]
  | case5 acc c d cs hc ih =>
    have hc8 : ¬ c = 13#8 := hc
    have := ih (by simp only [List.mem_append, List.mem_singleton, not_or]; exact ⟨hacc, fun e => hc e.symm⟩)
    simp only [List.cons_append] at this
    simp [scan, kept, hc8, this]

/-- What is kept contains no complete piece. -/
theorem scan_kept (a : List Byte) (acc : List Byte) (hacc : CR ∉ acc) : scan [] (kept acc a) = [] := by
  have := (scan_append a [] acc hacc).1
  rw [List.append_nil, List.append_nil] at this
  exact (List.append_cancel_left (this.symm.trans (List.append_nil _).symm))

/-- One line of output of a command that has not ended. -/
theorem processCli_spec (s : Rx σ) (c : Cmd) (hc : s.cmd = some c) (line : List Byte) (r : List (List Byte))
    (h : collect c.text (some s.resp) line = some r) : processCli env s line = (.ok (), { s with
      resp := r
      cli := s.cli ++ [line] }) := by
  cases s
  simp only at hc h
  subst hc
  rename_i resp _ _ _ _ _
  cases resp with
  | nil =>
    simp only [collect] at h
    simp only [processCli, List.length_nil, if_true]
    split at h
    · rename_i hl
      simp_all
    · rename_i hl
      simp_all
  | cons l ls =>
    simp only [collect] at h
    split at h
    · simp at h
    · rename_i hl
      simp only [Option.some.injEq] at h
      simp [processCli, hl, ← h]

/-- The lines that end in `\r\n`. -/
theorem processCliLines_spec (ts : Stamp) (c : Cmd) (lns : List (List Byte)) : ∀ (s : Rx σ), s.cmd = some c →
    ∀ r, (lns.map (restOf [])).foldl (collect c.text) (some s.resp) = some r →
    ∃ s', processCliLines env ts s lns = (.ok (), s') ∧
      heard s'.seen = heard s.seen ++ (lns.flatMap (linesOf [])).filterMap frameOf ∧
      s'.data = s.data ∧ s'.cmd = some c ∧ s'.resp = r ∧ s'.pending = s.pending := by
  induction lns with
  | nil =>
    intro s hc r hr
    exact ⟨s, rfl, by simp, rfl, hc, by simpa using hr, rfl⟩
  | cons ln lns ih =>
    intro s hc r hr
    obtain ⟨a1, a2, a3, a4, a5⟩ := processLines_spec env ts (linesOf [] ln) s
    simp only [List.map_cons, List.foldl_cons] at hr
    cases hcol : collect c.text (some s.resp) (restOf [] ln) with
    | none => rw [hcol, collect_none] at hr; simp at hr
    | some r1 =>
      rw [hcol] at hr
      have hp := processCli_spec env (processLines env ts s (linesOf [] ln)) c (a3.trans hc) (restOf [] ln) r1 (by rw [a4]; exact hcol)
      obtain ⟨s', e1, e2, e3, e4, e5, e6⟩ := ih { processLines env ts s (linesOf [] ln) with
        resp := r1
        cli := (processLines env ts s (linesOf [] ln)).cli ++ [restOf [] ln] } (a3.trans hc) r hr
      refine ⟨s', ?_, ?_, e3.trans a2, e4, e5, e6.trans a5⟩
      · simp only [processCliLines, splitOn_lines, hp, e1]
      · rw [e2]
        simp only [a1, List.flatMap_cons, List.filterMap_append, List.append_assoc]

theorem tokensOf_slc (ps : List (List Byte)) (h : ps ≠ []) :
    (tokensOf [] ps).filterMap slcOf = (unsnoc ps).1.flatMap (linesOf []) ++ linesOf [] (unsnoc ps).2.dropLast ∧
    (tokensOf [] ps).filterMap cliOf = (unsnoc ps).1.map (restOf []) ∧
    keptOf [] ps = restOf [] (unsnoc ps).2.dropLast ++ (unsnoc ps).2.drop ((unsnoc ps).2.length - 1) := by
  have hm : ∀ ls : List (List Byte), (ls.map Token.slc).filterMap slcOf = ls ∧ (ls.map Token.slc).filterMap cliOf = [] := by
    intro ls
    induction ls with
    | nil => simp
    | cons l ls ih => simp [slcOf, cliOf, ih]
  induction ps with
  | nil => exact absurd rfl h
  | cons p ps ih =>
    cases ps with
    | nil => simp [tokensOf, keptOf, unsnoc, hm]
    | cons q ps =>
      obtain ⟨i1, i2, i3⟩ := ih (by simp)
      have hu : unsnoc (p :: q :: ps) = (p :: (unsnoc (q :: ps)).1, (unsnoc (q :: ps)).2) := by simp [unsnoc]
      rw [hu]
      refine ⟨?_, ?_, i3⟩
      · simp only [tokensOf, List.filterMap_append, hm, List.filterMap_cons, slcOf, i1, List.flatMap_cons, List.append_assoc]
      · simp only [tokensOf, List.filterMap_append, hm, List.filterMap_cons, cliOf, i2, List.map_cons, List.nil_append]

/-- One read while a command is executed. -/
theorem iteration_cli (s : Rx σ) (c : Cmd) (hc : s.cmd = some c) (new : List Byte) (ts : Stamp) (now : Int)
    (hnow : now < c.deadline) (r : List (List Byte))
    (hr : ((scan [] (s.data ++ new)).filterMap cliOf).foldl (collect c.text) (some s.resp) = some r) :
    heard (iteration env s new ts now).seen =
      heard s.seen ++ ((scan [] (s.data ++ new)).filterMap slcOf).filterMap frameOf ∧
    (iteration env s new ts now).data = kept [] (s.data ++ new) ∧ (iteration env s new ts now).cmd = some c ∧
    (iteration env s new ts now).resp = r ∧ (iteration env s new ts now).pending = s.pending := by
  have hcheck : checkCommands now { s with data := s.data ++ new } = { s with data := s.data ++ new } := by
    simp only [checkCommands, hc]
    rw [if_neg (by omega)]
  obtain ⟨t1, t2⟩ := tokensOf_scan (s.data ++ new) []
  obtain ⟨u1, u2, u3⟩ := tokensOf_slc (splitCrLf (s.data ++ new)) (splitCrLf_ne_nil _)
  rw [t1] at u1 u2
  rw [t2] at u3
  rw [u2] at hr
  obtain ⟨s', e1, e2, e3, e4, e5, e6⟩ := processCliLines_spec env ts c (unsnoc (splitCrLf (s.data ++ new))).1
    { s with data := (unsnoc (splitCrLf (s.data ++ new))).2 } hc r hr
  have hit : iteration env s new ts now = processLines env ts
      { s' with data := restOf [] s'.data.dropLast ++ s'.data.drop (s'.data.length - 1) } (linesOf [] s'.data.dropLast) := by
    simp only [iteration, hcheck]
    split
    · rename_i h0
      rw [hc] at h0
      simp at h0
    · simp only [e1, splitOn_lines]
  obtain ⟨p1, p2, p3, p4, p5⟩ := processLines_spec env ts (linesOf [] s'.data.dropLast)
    { s' with data := restOf [] s'.data.dropLast ++ s'.data.drop (s'.data.length - 1) }
  rw [hit]
  refine ⟨?_, ?_, p3.trans e4, p4.trans e5, p5.trans e6⟩
  · rw [p1]
    simp only [e2, e3, u1, List.filterMap_append, List.append_assoc]
  · rw [p2, u3]
    simp only [e3]

/-- While a command is executed — until its deadline and until its end of text — whatever the reads are and whatever
commands are queued meanwhile: the frames delivered are those of the SLCAN lines of the whole stream, the output collected
for the command is that in the whole stream, and what is kept depends on the whole stream only. -/
theorem C48_cli_partial (c : Cmd) (reads : List Read) : ∀ (s : Rx σ), s.cmd = some c → scan [] s.data = [] →
    (∀ r ∈ reads, r.now < c.deadline) → ∀ resp,
    ((scan [] (s.data ++ bytesOf reads)).filterMap cliOf).foldl (collect c.text) (some s.resp) = some resp →
    heard (run env s reads).seen =
      heard s.seen ++ ((scan [] (s.data ++ bytesOf reads)).filterMap slcOf).filterMap frameOf ∧
    (run env s reads).data = kept [] (s.data ++ bytesOf reads) ∧
    (run env s reads).resp = resp ∧ (run env s reads).cmd = some c ∧
    (run env s reads).pending = s.pending ++ reads.flatMap (·.cmds) := by
  induction reads with
  | nil =>
    intro s hc hd _ resp hr
    have hk : kept [] s.data = s.data := by
      · have gen : ∀ l acc, scan acc l = [] → kept acc l = acc ++ l := by
          intro l acc
          fun_induction scan acc l with
          | case1 acc => simp [kept]
          | case2 acc c => simp [kept]
          | case3 acc cs ih => simp
          | case4 acc d cs hd ih => simp
          | case5 acc c d cs hc ih =>
            have hc8 : ¬ c = 13#8 := hc
            intro h
            simp [kept, hc8, ih h]
        simpa using gen s.data [] hd
    simp only [bytesOf, List.flatMap_nil, List.append_nil, hd, List.filterMap_nil, List.foldl_nil, Option.some.injEq] at hr ⊢
    exact ⟨rfl, hk.symm, hr, hc, rfl⟩
  | cons r reads ih =>
    intro s hc hd hnow resp hr
    have hb : bytesOf (r :: reads) = r.new ++ bytesOf reads := rfl
    obtain ⟨sc, kp⟩ := scan_append (s.data ++ r.new) (bytesOf reads) [] (by simp)
    rw [hb, ← List.append_assoc, sc, List.filterMap_append, List.foldl_append] at hr
    cases hcol : ((scan [] (s.data ++ r.new)).filterMap cliOf).foldl (collect c.text) (some s.resp) with
    | none => rw [hcol, collect_none] at hr; simp at hr
    | some r1 =>
      rw [hcol] at hr
      obtain ⟨i1, i2, i3, i4, i5⟩ := iteration_cli env { s with pending := s.pending ++ r.cmds } c hc r.new r.ts r.now
        (hnow r List.mem_cons_self) r1 hcol
      obtain ⟨j1, j2, j3, j4, j5⟩ := ih (iteration env { s with pending := s.pending ++ r.cmds } r.new r.ts r.now) i3
        (by rw [i2]; exact scan_kept _ _ (by simp)) (fun q hq => hnow q (List.mem_cons_of_mem _ hq)) resp
        (by rw [i2, i4]; exact hr)
      have hrun : run env s (r :: reads) =
          run env (iteration env { s with pending := s.pending ++ r.cmds } r.new r.ts r.now) reads := rfl
      rw [hrun, hb, ← List.append_assoc, sc, kp]
      refine ⟨?_, ?_, j3, j4, ?_⟩
      · rw [j1, i1, i2, List.filterMap_append, List.filterMap_append, List.append_assoc]
      · rw [j2, i2]
      · rw [j5, i5, List.flatMap_cons, List.append_assoc]

/-! ## What becomes of the lines -/

/-- Between two states of the worker, the output grows by the frames of the lines processed meanwhile, with their time stamps, but for those for which the
estimators raised; a line without time stamp is not among these. -/
def Ledger (s s' : Rx σ) : Prop :=
  ∃ new, s'.seen = s.seen ++ new ∧ stampedOf s'.out = stampedOf s.out ++ new.filterMap (fun x => x.2.map fun ts => (x.1.frame, ts)) ∧
    ∀ x ∈ new, x.1.hwTs = none → x.2 ≠ none

theorem Ledger.same {s s' : Rx σ} (h1 : s'.seen = s.seen) (h2 : stampedOf s'.out = stampedOf s.out) : Ledger s s' :=
  ⟨[], by simp [h1], by simp [h2], by simp⟩

theorem Ledger.trans {a b c : Rx σ} (h : Ledger a b) (h' : Ledger b c) : Ledger a c := by
  obtain ⟨n, h1, h2, h3⟩ := h
  obtain ⟨n', h1', h2', h3'⟩ := h'
  refine ⟨n ++ n', by rw [h1', h1, List.append_assoc], by rw [h2', h2, List.filterMap_append, List.append_assoc], ?_⟩
  intro x hx
  rcases List.mem_append.1 hx with hx | hx
  · exact h3 x hx
  · exact h3' x hx

theorem ledger_line (ts : Stamp) (s : Rx σ) (line : List Byte) : Ledger s (processLine env ts s line) := by
  unfold processLine
  split
  · exact .same rfl rfl
  · exact .same rfl rfl
  · rename_i p hp
    split
    · exact ⟨[(p, some ts)], rfl, by simp [stampedOf, itemStamped], by simp⟩
    · rename_i hw hh
      split
      · exact ⟨[(p, none)], rfl, by simp [stampedOf], by simp [hh]⟩
      · rename_i ts' est hu
        exact ⟨[(p, some ts')], rfl, by simp [stampedOf, itemStamped], by simp⟩

theorem ledger_lines (ts : Stamp) (lines : List (List Byte)) : ∀ s : Rx σ, Ledger s (processLines env ts s lines) := by
  induction lines with
  | nil => exact fun s => .same rfl rfl
  | cons l ls ih => exact fun s => (ledger_line env ts s l).trans (ih _)

theorem ledger_fetch (now : Int) (l : List Cmd) : ∀ s : Rx σ,
    Ledger s (checkCommands.fetch now (fun out c => out ++ [.response c.text [] true]) s l) := by
  induction l with
  | nil => exact fun s => .same rfl rfl
  | cons c cs ih =>
    intro s
    simp only [checkCommands.fetch]
    split
    · refine Ledger.trans ?_ (ih _)
      exact .same rfl (by simp [stampedOf, itemStamped])
    · exact .same rfl rfl

theorem ledger_check (now : Int) (s : Rx σ) : Ledger s (checkCommands now s) := by
  unfold checkCommands
  simp only
  split
  · split
    · refine Ledger.trans ?_ (ledger_fetch now _ _)
      exact .same rfl (by simp [stampedOf, itemStamped])
    · exact .same rfl rfl
  · exact ledger_fetch now _ _

theorem ledger_cli (s : Rx σ) (line : List Byte) : Ledger s (processCli env s line).2 := by
  unfold processCli
  simp only
  repeat' split
  all_goals exact .same rfl (by simp [stampedOf, itemStamped])

theorem ledger_cliLines (ts : Stamp) (lines : List (List Byte)) : ∀ s : Rx σ, Ledger s (processCliLines env ts s lines).2 := by
  induction lines with
  | nil => exact fun s => .same rfl rfl
  | cons l ls ih =>
    intro s
    simp only [processCliLines]
    have h := (ledger_lines env ts (unsnoc (splitOn CR l)).1 s).trans
      (ledger_cli env (processLines env ts s (unsnoc (splitOn CR l)).1) (unsnoc (splitOn CR l)).2)
    split
    · rename_i heq
      rw [heq] at h
      exact h.trans (ih _)
    · rename_i heq
      rw [heq] at h
      exact h

theorem ledger_iteration (s : Rx σ) (new : List Byte) (ts : Stamp) (now : Int) : Ledger s (iteration env s new ts now) := by
  unfold iteration
  simp only
  have h : Ledger s (checkCommands now { s with data := s.data ++ new }) :=
    (Ledger.same (s' := { s with data := s.data ++ new }) rfl rfl).trans (ledger_check now _)
  split
  · exact (h.trans (.same rfl rfl)).trans (ledger_lines env ts _ _)
  · have h2 := (h.trans (Ledger.same (s' := { checkCommands now { s with data := s.data ++ new } with
        data := (unsnoc (splitCrLf (checkCommands now { s with data := s.data ++ new }).data)).2 }) rfl rfl)).trans
      (ledger_cliLines env ts (unsnoc (splitCrLf (checkCommands now { s with data := s.data ++ new }).data)).1 _)
    split
    · rename_i heq
      rw [heq] at h2
      exact h2.trans (.same rfl (by simp [stampedOf, itemStamped]))
    · rename_i heq
      rw [heq] at h2
      exact (h2.trans (.same rfl rfl)).trans (ledger_lines env ts _ _)

/-- Whatever the reads and the commands: the frames delivered are those of the lines processed, in order, without those for which the estimators raised. -/
theorem C48_delivered (reads : List Read) : ∀ s : Rx σ, Ledger s (run env s reads) := by
  induction reads with
  | nil => exact fun s => .same rfl rfl
  | cons r reads ih =>
    intro s
    exact ((Ledger.same (s' := { s with pending := s.pending ++ r.cmds }) rfl rfl).trans (ledger_iteration env _ r.new r.ts r.now)).trans (ih _)

theorem framesOf_stamped (out : List Item) : framesOf out = (stampedOf out).map Prod.fst := by
  induction out with
  | nil => rfl
  | cons i out ih => cases i <;> simp_all [framesOf, stampedOf, itemFrame, itemStamped, List.filterMap_cons]

/-- If none is lost, these are the frames of all lines processed. -/
theorem Ledger.all {s s' : Rx σ} (h : Ledger s s') (hn : NoneLost s') (extra : List CANFrame) (he : heard s'.seen = heard s.seen ++ extra) :
    framesOf s'.out = framesOf s.out ++ extra := by
  obtain ⟨new, h1, h2, -⟩ := h
  have hnew : ∀ x ∈ new, x.2 ≠ none := fun x hx => hn x (by rw [h1]; simp [hx])
  have hx : new.map (fun x => x.1.frame) = extra := by
    rw [h1, heard, heard, List.map_append] at he
    exact List.append_cancel_left he
  rw [framesOf_stamped, framesOf_stamped, h2, List.map_append, ← hx]
  congr 1
  clear h1 h2 he hx hn
  induction new with
  | nil => rfl
  | cons x new ih =>
    obtain ⟨p, ts⟩ := x
    cases ts with
    | none => exact absurd rfl (hnew (p, none) (by simp))
    | some ts => simp [ih fun y hy => hnew y (by simp [hy])]

/-! ## Examples -/

/-- A frame line, a malformed line, another frame line; one read or byte by byte. -/
example :
    let stream := "T000000011AA\rTxyz\rt12320102\rT0".toList.map ch
    let env : REnv Unit := ⟨fun _ _ ts => (some ts, ()), fun _ => true⟩
    framesOf (run env { est := () } [⟨stream, (0, 0), 0, []⟩]).out = [⟨1, [0xAA], true, false⟩, ⟨0x123, [1, 2], false, false⟩] ∧
    (run env { est := () } [⟨stream, (0, 0), 0, []⟩]).data = "T0".toList.map ch ∧
    framesOf (run env { est := () } (stream.map fun b => ⟨[b], (0, 0), 0, []⟩)).out =
      [⟨1, [0xAA], true, false⟩, ⟨0x123, [1, 2], false, false⟩] := by decide +kernel

/-- A command's echo and output among frame lines. -/
example :
    let stream := "?\r\nT000000011AA\rhello\r\nT000000012".toList.map ch
    (scan [] stream).filterMap slcOf = ["T000000011AA".toList.map ch] ∧
    ((scan [] stream).filterMap cliOf).foldl (collect ("?".toList.map ch)) (some []) =
      some ["?".toList.map ch, "hello".toList.map ch] := by decide +kernel

/-- The hypothesis of `C48_malformed_partial`. -/
example : ∃ e, parseLine ("Txyz".toList.map ch) = .error e := ⟨.valueError, by decide +kernel⟩

end Slcan
end Dronecan
