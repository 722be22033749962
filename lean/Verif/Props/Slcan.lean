import Verif.Model.Slcan
import Verif.Model.Transfer

/-!
# DLC tables (C52) and the SLCAN driver (C47, C48)
-/

namespace Dronecan

/-! ## C52 -/

namespace Can

/-- The data lengths that a CAN FD frame can have (ISO 11898-1). -/
def fdLengths : List Nat := [0, 1, 2, 3, 4, 5, 6, 7, 8, 12, 16, 20, 24, 32, 48, 64]

/-- Encoding a length as a DLC and decoding it gives the smallest possible length that is at least as large. -/
theorem C52_roundup (n : Nat) (h : n ≤ 64) : dlcToLen (lenToDlc n) ∈ fdLengths ∧ n ≤ dlcToLen (lenToDlc n) ∧
    ∀ m ∈ fdLengths, n ≤ m → dlcToLen (lenToDlc n) ≤ m := by
  have : ∀ n : Fin 65, dlcToLen (lenToDlc n) ∈ fdLengths ∧ n ≤ dlcToLen (lenToDlc n) ∧
      ∀ m ∈ fdLengths, n ≤ m → dlcToLen (lenToDlc n) ≤ m := by decide +kernel
  exact this ⟨n, by omega⟩

/-- It is what the transport layer pads payloads to. -/
theorem C52_padding (n : Nat) : dlcToLen (lenToDlc n) = datalengthRoundup n := by
  simp only [lenToDlc, datalengthRoundup]
  split
  · rename_i h; simp [dlcToLen, h]
  · repeat (split; · rfl)
    rfl

/-- DLCs survive decoding and encoding, and valid lengths survive encoding and decoding. -/
theorem C52_inverse (d : Nat) (h : d ≤ 15) : lenToDlc (dlcToLen d) = d ∧ dlcToLen d ∈ fdLengths := by
  have : ∀ d : Fin 16, lenToDlc (dlcToLen d) = d ∧ dlcToLen d ∈ fdLengths := by decide +kernel
  exact this ⟨d, by omega⟩

theorem C52_valid (n : Nat) (h : n ∈ fdLengths) : dlcToLen (lenToDlc n) = n := by
  have : ∀ n ∈ fdLengths, dlcToLen (lenToDlc n) = n := by decide +kernel
  exact this n h

/-- DLCs fit four bits. -/
theorem C52_bound (n : Nat) : lenToDlc n ≤ 15 := by
  simp only [lenToDlc]
  repeat' split
  all_goals omega

end Can

namespace Slcan
open Can

/-! ## C47: one line -/

/-- A frame within the limits of CAN: an identifier of at most 29 bits (11 for a standard frame), and a length that the
frame format has. -/
def InLimits (f : CANFrame) : Prop :=
  0 ≤ f.canId ∧ f.canId < (if f.extended then 2 ^ 29 else 2 ^ 11) ∧
  (if f.canfd then f.data.length ∈ fdLengths else f.data.length ≤ 8)

/-- A time stamp that the adapter appends: nothing, or four hexadecimal digits. -/
def IsStamp (ts : List Byte) : Prop := ts = [] ∨ (ts.length = 4 ∧ ∀ d ∈ ts, hexVal d ≠ none)

/-- C47 in full: what is written for a frame within the limits ends in a carriage return, and the rest, possibly with a
time stamp added, is parsed into the same frame. -/
def C47_statement : Prop :=
  ∀ (f : CANFrame) (ts : List Byte), InLimits f → IsStamp ts →
    ∃ line, sendFrame f = .ok (line ++ [CR]) ∧ CR ∉ line ∧ ∃ hw, parseLine (line ++ ts) = .ok (some ⟨f, hw⟩)

/-- It is false: standard frames cannot be sent at all. -/
theorem C47_counterexample : ¬ C47_statement := by
  intro h
  obtain ⟨line, h1, -⟩ := h ⟨5, [], false, false⟩ [] ⟨by decide, by decide, by decide⟩ (.inl rfl)
  cases h1

/-! ### Hexadecimal digits -/

theorem hexVal_U : ∀ n : Nat, n < 16 → hexVal (hexDigitU n) = some n := by
  have : ∀ n : Fin 16, hexVal (hexDigitU n) = some n.val := by decide +kernel
  intro n h; exact this ⟨n, h⟩

theorem hexVal_L : ∀ n : Nat, n < 16 → hexVal (hexDigitL n) = some n := by
  have : ∀ n : Fin 16, hexVal (hexDigitL n) = some n.val := by decide +kernel
  intro n h; exact this ⟨n, h⟩

/-- A byte is a hexadecimal digit. -/
def IsHex (b : Byte) : Prop := hexVal b ≠ none

instance (b : Byte) : Decidable (IsHex b) := inferInstanceAs (Decidable (_ ≠ _))

/-- Hexadecimal digits are none of the characters with a special meaning. -/
theorem isHex_plain : ∀ b : Byte, IsHex b → isWs b = false ∧ b ≠ NACK ∧ b ≠ ETX ∧ b ≠ CR ∧ b ≠ ch '_' ∧ b ≠ ch 'x' ∧
    b ≠ ch 'X' ∧ b ≠ ch '+' ∧ b ≠ ch '-' := by
  have : ∀ n : Fin 256, IsHex (BitVec.ofFin n) → isWs (BitVec.ofFin n) = false ∧ (BitVec.ofFin n : Byte) ≠ NACK ∧
      (BitVec.ofFin n : Byte) ≠ ETX ∧ (BitVec.ofFin n : Byte) ≠ CR ∧ (BitVec.ofFin n : Byte) ≠ ch '_' ∧
      (BitVec.ofFin n : Byte) ≠ ch 'x' ∧ (BitVec.ofFin n : Byte) ≠ ch 'X' ∧ (BitVec.ofFin n : Byte) ≠ ch '+' ∧
      (BitVec.ofFin n : Byte) ≠ ch '-' := by decide +kernel
  intro b; exact this b.toFin

theorem isHex_U (n : Nat) (h : n < 16) : IsHex (hexDigitU n) := by rw [IsHex, hexVal_U n h]; simp
theorem isHex_L (n : Nat) (h : n < 16) : IsHex (hexDigitL n) := by rw [IsHex, hexVal_L n h]; simp

/-- The value of a digit sequence. -/
def digitsVal (ds : List Byte) (acc : Nat) : Nat := ds.foldl (fun a d => a * 16 + (hexVal d).getD 0) acc

theorem intDigits_hex (ds : List Byte) : ∀ (prev : Bool) (acc : Nat), (∀ d ∈ ds, IsHex d) → (ds ≠ [] ∨ prev = true) →
    intDigits ds prev acc = some (digitsVal ds acc) := by
  induction ds with
  | nil => intro prev acc _ h; simp at h; simp [intDigits, h, digitsVal]
  | cons d ds ih =>
    intro prev acc h _
    have hd := h d List.mem_cons_self
    simp only [intDigits, if_neg (isHex_plain d hd).2.2.2.2.1]
    cases hv : hexVal d with
    | none => exact absurd hv hd
    | some v =>
      simp only
      rw [ih true _ (fun d hd => h d (List.mem_cons_of_mem _ hd)) (.inr rfl)]
      simp [digitsVal, hv]

theorem intBody_hex (ds : List Byte) (h : ∀ d ∈ ds, IsHex d) (hne : ds ≠ []) : intBody ds = some (digitsVal ds 0) := by
  unfold intBody
  split
  · rename_i a b rest
    have hb := isHex_plain b (h b (by simp))
    rw [if_neg (by rintro ⟨-, e | e⟩; exact hb.2.2.2.2.2.1 e; exact hb.2.2.2.2.2.2.1 e)]
    exact intDigits_hex _ _ _ h (.inl hne)
  · exact intDigits_hex _ _ _ h (.inl hne)

theorem dropWhile_head {p : Byte → Bool} {l : List Byte} (h : ∀ b, l.head? = some b → p b = false) :
    l.dropWhile p = l := by
  cases l with
  | nil => rfl
  | cons a l => rw [List.dropWhile_cons, h a rfl]; rfl

theorem stripBy_id {p : Byte → Bool} {l : List Byte} (h1 : ∀ b, l.head? = some b → p b = false)
    (h2 : ∀ b, l.getLast? = some b → p b = false) : stripBy p l = l := by
  unfold stripBy
  rw [dropWhile_head h1, dropWhile_head (fun b hb => h2 b (by rw [← List.head?_reverse]; exact hb)), List.reverse_reverse]

theorem pyInt16_hex (ds : List Byte) (h : ∀ d ∈ ds, IsHex d) (hne : ds ≠ []) :
    pyInt16 ds = some ((digitsVal ds 0 : Nat) : Int) := by
  unfold pyInt16
  rw [stripBy_id (fun b hb => (isHex_plain b (h b (List.mem_of_mem_head? hb))).1)
    (fun b hb => (isHex_plain b (h b (List.mem_of_getLast? hb))).1)]
  cases ds with
  | nil => exact absurd rfl hne
  | cons c rest =>
    have hc := isHex_plain c (h c List.mem_cons_self)
    simp only
    rw [if_neg hc.2.2.2.2.2.2.2.1, if_neg hc.2.2.2.2.2.2.2.2, intBody_hex _ h hne]
    rfl

theorem toHex_spec (n : Nat) : (∀ d ∈ toHex n, IsHex d) ∧ (∀ acc, digitsVal (toHex n) acc = acc * 16 ^ (toHex n).length + n) ∧
    (toHex n).length ≠ 0 ∧ ∀ k, n < 16 ^ (k + 1) → (toHex n).length ≤ k + 1 := by
  induction n using Nat.strongRecOn with
  | ind n ih =>
    rw [toHex]
    split
    · rename_i h
      refine ⟨?_, ?_, by simp, ?_⟩
      · intro d hd; rw [List.mem_singleton] at hd; rw [hd]; exact isHex_U n h
      · intro acc; simp [digitsVal, hexVal_U n h]
      · intro k _; simp
    · rename_i h
      obtain ⟨h1, h2, h3, h4⟩ := ih (n / 16) (by omega)
      have hm : n % 16 < 16 := Nat.mod_lt _ (by decide)
      refine ⟨?_, ?_, by simp, ?_⟩
      · intro d hd
        rcases List.mem_append.1 hd with hd | hd
        · exact h1 d hd
        · rw [List.mem_singleton] at hd; rw [hd]; exact isHex_U _ hm
      · intro acc
        have := h2 acc
        unfold digitsVal at this ⊢
        rw [List.foldl_append, this]
        simp only [List.foldl_cons, List.foldl_nil, hexVal_U _ hm, Option.getD_some, List.length_append,
          List.length_singleton, Nat.pow_succ]
        rw [Nat.add_mul, Nat.mul_assoc]
        omega
      · intro k hk
        cases k with
        | zero => simp only [Nat.zero_add, Nat.pow_one] at hk; omega
        | succ k =>
          have := h4 k (by rw [Nat.div_lt_iff_lt_mul (by decide)]; rw [Nat.pow_succ] at hk; exact hk)
          simp only [List.length_append, List.length_singleton]
          omega

theorem digitsVal_zeros (k : Nat) (ds : List Byte) : digitsVal (List.replicate k (ch '0') ++ ds) 0 = digitsVal ds 0 := by
  induction k with
  | zero => rfl
  | succ k ih => simpa [digitsVal, List.replicate_succ, show hexVal (ch '0') = some 0 by decide] using ih

theorem padHex_spec (n : Nat) (h : n < 16 ^ 8) : (∀ d ∈ padHex 8 n, IsHex d) ∧ (padHex 8 n).length = 8 ∧
    digitsVal (padHex 8 n) 0 = n := by
  obtain ⟨h1, h2, h3, h4⟩ := toHex_spec n
  have hl := h4 7 h
  unfold padHex
  refine ⟨?_, ?_, ?_⟩
  · intro d hd
    rcases List.mem_append.1 hd with hd | hd
    · rw [List.eq_of_mem_replicate hd]; decide
    · exact h1 d hd
  · rw [List.length_append, List.length_replicate]; omega
  · rw [digitsVal_zeros, h2]; omega

theorem b2aHex_spec (data : List Byte) : (∀ d ∈ b2aHex data, IsHex d) ∧ (b2aHex data).length = data.length * 2 ∧
    a2bHex (b2aHex data) = some data := by
  induction data with
  | nil => exact ⟨by simp [b2aHex], rfl, rfl⟩
  | cons b data ih =>
    obtain ⟨h1, h2, h3⟩ := ih
    have hb := b.isLt
    have hd : b.toNat / 16 < 16 := by omega
    have hm : b.toNat % 16 < 16 := by omega
    have he : b2aHex (b :: data) = hexDigitL (b.toNat / 16) :: hexDigitL (b.toNat % 16) :: b2aHex data := rfl
    rw [he]
    refine ⟨?_, ?_, ?_⟩
    · intro d hd'
      rcases List.mem_cons.1 hd' with rfl | hd'
      · exact isHex_L _ hd
      · rcases List.mem_cons.1 hd' with rfl | hd'
        · exact isHex_L _ hm
        · exact h1 d hd'
    · simp only [List.length_cons, h2]; omega
    · simp only [a2bHex, hexVal_L _ hd, hexVal_L _ hm, h3]
      rw [Nat.div_add_mod' b.toNat 16]
      simp

theorem toHex_dlc (n : Nat) : toHex (lenToDlc n) = [hexDigitU (lenToDlc n)] := by
  have := C52_bound n
  rw [toHex, if_pos (by omega)]

/-- Extended frames within the limits: what is written ends in a carriage return, has none before it, and the rest is
parsed into the same frame, with the time stamp that was appended. (Missing from the full statement: standard frames,
which cannot be sent, see `C47_counterexample`.) -/
theorem C47_extended_partial (f : CANFrame) (ts : List Byte) (hf : InLimits f) (hx : f.extended = true) (ht : IsStamp ts) :
    ∃ line, sendFrame f = .ok (line ++ [CR]) ∧ CR ∉ line ∧
      parseLine (line ++ ts) = .ok (some ⟨f, if ts = [] then none else some ((digitsVal ts 0 : Nat) : Int)⟩) := by
  obtain ⟨hid0, hid, hlen⟩ := hf
  rw [hx] at hid
  simp only [if_true] at hid
  obtain ⟨n, hn⟩ : ∃ n : Nat, f.canId = n := ⟨f.canId.toNat, by omega⟩
  have hn29 : n < 16 ^ 8 := by
    have : (n : Int) < 2 ^ 29 := hn ▸ hid
    have h2 : (2 : Int) ^ 29 = 536870912 := by decide
    have h3 : 16 ^ 8 = 4294967296 := by decide
    omega
  obtain ⟨p1, p2, p3⟩ := padHex_spec n hn29
  obtain ⟨b1, b2, b3⟩ := b2aHex_spec f.data
  have hdlc := C52_bound f.data.length
  let m : Byte := if f.canfd then ch 'D' else ch 'T'
  let dg := hexDigitU (lenToDlc f.data.length)
  have hdg : IsHex dg := isHex_U _ (by omega)
  have hm : header m = some (8, f.canfd) := by
    show header (if f.canfd then ch 'D' else ch 'T') = _
    cases f.canfd <;> decide
  have hmp : isWs m = false ∧ m ≠ NACK ∧ m ≠ ETX ∧ m ≠ CR := by
    show isWs (if f.canfd then ch 'D' else ch 'T') = false ∧ (if f.canfd then ch 'D' else ch 'T') ≠ NACK ∧
      (if f.canfd then ch 'D' else ch 'T') ≠ ETX ∧ (if f.canfd then ch 'D' else ch 'T') ≠ CR
    cases f.canfd <;> decide
  refine ⟨m :: (padHex 8 n ++ dg :: b2aHex f.data), ?_, ?_, ?_⟩
  · simp only [sendFrame, hx, if_true, hn, Int.toNat_natCast, toHex_dlc]
    simp [m, dg]
  · simp only [List.mem_cons, List.mem_append, not_or]
    exact ⟨Ne.symm hmp.2.2.2, fun h => (isHex_plain _ (p1 _ h)).2.2.2.1 rfl, fun h => (isHex_plain _ (h ▸ hdg)).2.2.2.1 rfl,
      fun h => (isHex_plain _ (b1 _ h)).2.2.2.1 rfl⟩
  · -- the line as the parser sees it
    have htail : ∀ d ∈ b2aHex f.data ++ ts, IsHex d := by
      intro d hd
      rcases List.mem_append.1 hd with hd | hd
      · exact b1 d hd
      · rcases ht with rfl | ⟨-, ht⟩
        · cases hd
        · exact ht d hd
    have hline : m :: (padHex 8 n ++ dg :: b2aHex f.data) ++ ts = m :: (padHex 8 n ++ dg :: (b2aHex f.data ++ ts)) := by
      simp
    rw [hline]
    generalize hl : m :: (padHex 8 n ++ dg :: (b2aHex f.data ++ ts)) = line
    have hhead : ∀ b, line.head? = some b → b = m := by
      intro b hb; rw [← hl] at hb; simpa using hb.symm
    have hlast : ∀ b, line.getLast? = some b → IsHex b := by
      intro b hb
      rw [← hl, List.getLast?_cons, List.getLast?_append, List.getLast?_cons] at hb
      simp only [Option.some_or, Option.getD_some, Option.some.injEq] at hb
      cases hg : (b2aHex f.data ++ ts).getLast? with
      | none => rw [hg] at hb; rw [← hb]; exact hdg
      | some x => rw [hg] at hb; rw [← hb]; exact htail x (List.mem_of_getLast? hg)
    have hs1 : stripBy isWs line = line :=
      stripBy_id (fun b hb => hhead b hb ▸ hmp.1) (fun b hb => (isHex_plain b (hlast b hb)).1)
    have hs2 : stripBy (· == NACK) line = line :=
      stripBy_id (fun b hb => by rw [hhead b hb]; simpa using hmp.2.1)
        (fun b hb => by simpa using (isHex_plain b (hlast b hb)).2.1)
    have hs3 : stripBy (· == ETX) line = line :=
      stripBy_id (fun b hb => by rw [hhead b hb]; simpa using hmp.2.2.1)
        (fun b hb => by simpa using (isHex_plain b (hlast b hb)).2.2.1)
    simp only [parseLine, hs1, hs2, hs3]
    have e1 : (line.drop 1).take 8 = padHex 8 n := by
      rw [← hl, List.drop_one, List.tail_cons, List.take_left' p2]
    have e2 : line[1 + 8]? = some dg := by
      rw [← hl, Nat.add_comm, List.getElem?_cons_succ, List.getElem?_append_right (by omega), p2]
      rfl
    have e3 : line.drop (2 + 8) = b2aHex f.data ++ ts := by
      rw [← hl, show 2 + 8 = 9 + 1 from rfl, List.drop_succ_cons, List.drop_append, p2]
      simp [List.drop_of_length_le, p2]
    have hdl : dlcToLen (lenToDlc f.data.length) = f.data.length := by
      cases hfd : f.canfd with
      | true => rw [hfd] at hlen; exact C52_valid _ (by simpa using hlen)
      | false =>
        rw [hfd] at hlen
        have : f.data.length ≤ 8 := by simpa using hlen
        simp [dlcToLen, lenToDlc, this]
    have hle : f.data.length ≤ 64 ∧ (f.canfd = false → f.data.length ≤ 8) := by
      cases hfd : f.canfd with
      | true =>
        rw [hfd] at hlen
        have h1 : ∀ x ∈ fdLengths, x ≤ 64 := by decide
        exact ⟨h1 _ (by simpa using hlen), fun h => by cases h⟩
      | false =>
        rw [hfd] at hlen
        have : f.data.length ≤ 8 := by simpa using hlen
        exact ⟨by omega, fun _ => this⟩
    have hne : line ≠ [] := by rw [← hl]; simp
    have hll : line.length = 10 + f.data.length * 2 + ts.length := by
      rw [← hl]; simp only [List.length_cons, List.length_append, p2, b2]; omega
    have e4 : (b2aHex f.data ++ ts).take (f.data.length * 2) = b2aHex f.data := List.take_left' b2
    have e5 : pyInt16 (padHex 8 n) = some (n : Int) := by
      rw [pyInt16_hex _ p1 (by intro h; rw [h] at p2; cases p2), p3]
    have e6 : hexVal dg = some (lenToDlc f.data.length) := hexVal_U _ (by omega)
    have hfr : (⟨(n : Int), f.data, true, f.canfd⟩ : CANFrame) = f := by
      cases f; simp only at hn hx; simp [hn, hx]
    split
    · exact absurd rfl hne
    · rename_i c rest
      have hc : c = m := hhead c rfl
      have hm' : header c = some (8, f.canfd) := hc ▸ hm
      rw [hm']
      simp only
      rw [e1, e5]
      simp only
      rw [e2]
      simp only
      rw [e6]
      simp only [hdl]
      rw [if_neg (by rintro (⟨-, h⟩ | ⟨h1, h⟩); omega; have := hle.2 h1; omega), e3, e4, b3]
      simp only
      rcases ht with rfl | ⟨ht4, hth⟩
      · simp only [List.length_nil] at hll
        rw [if_neg (by omega)]
        simp [hfr]
      · have htne : ts ≠ [] := by intro h; rw [h] at ht4; cases ht4
        rw [if_pos (by omega)]
        have e7 : (c :: rest).drop ((c :: rest).length - 4) = ts := by
          rw [hll, show 10 + f.data.length * 2 + ts.length - 4 = f.data.length * 2 + (2 + 8) by omega,
            Nat.add_comm, ← List.drop_drop, e3, List.drop_left' b2]
        rw [e7, pyInt16_hex ts hth htne]
        simp [hfr, htne]

example : InLimits ⟨0x1FFFFFFF, List.replicate 48 0xAB, true, true⟩ := ⟨by decide, by decide, by decide⟩
example : parseLine ("T0000ABCD2fF00".toList.map ch ++ "1a2B".toList.map ch) =
    .ok (some ⟨⟨0xABCD, [0xFF, 0], true, false⟩, some 0x1A2B⟩) := by decide +kernel

theorem padHex_succ (w n : Nat) (hw : 1 ≤ w) : padHex (w + 1) n = padHex w (n / 16) ++ [hexDigitU (n % 16)] := by
  unfold padHex
  by_cases h : n < 16
  · have e1 : toHex n = [hexDigitU n] := by rw [toHex, if_pos h]
    have e2 : n / 16 = 0 := by omega
    have e3 : toHex 0 = [ch '0'] := by rw [toHex, if_pos (by decide)]; rfl
    rw [e1, e2, e3, Nat.mod_eq_of_lt h]
    obtain ⟨v, rfl⟩ : ∃ v, w = v + 1 := ⟨w - 1, by omega⟩
    simp [List.replicate_succ']
  · have e1 : toHex n = toHex (n / 16) ++ [hexDigitU (n % 16)] := by rw [toHex, if_neg h]
    rw [e1]
    simp

/-- The digits of a padded number, by their positions. -/
theorem padHex_eq (w : Nat) : ∀ n : Nat, n < 16 ^ (w + 1) →
    padHex (w + 1) n = (List.range (w + 1)).map fun k => hexDigitU (n / 16 ^ (w - k) % 16) := by
  induction w with
  | zero =>
    intro n hn
    have : toHex n = [hexDigitU n] := by rw [toHex, if_pos (by simpa using hn)]
    have h16 : n % 16 = n := Nat.mod_eq_of_lt (by simpa using hn)
    simp [padHex, this, h16]
  | succ w ih =>
    intro n hn
    rw [padHex_succ (w + 1) n (by omega), ih (n / 16) (by rw [Nat.pow_succ] at hn; omega), List.range_succ (n := w + 1), List.map_append]
    congr 1
    · apply List.map_congr_left
      intro k hk
      have hk : k ≤ w := by have := List.mem_range.1 hk; omega
      have e : w + 1 - k = (w - k) + 1 := by omega
      rw [e, Nat.pow_succ, Nat.mul_comm, Nat.div_div_eq_div_mul]
    · simp

/-- The byte of a character of ASCII. -/
def ascii (c : Char) : Byte := BitVec.ofNat 8 c.toNat

/-- The digits in upper and in lower case. -/
def upper (n : Nat) : Char := "0123456789ABCDEF".toList.getD n ' '

def lower (n : Nat) : Char := "0123456789abcdef".toList.getD n ' '

/-- The line for an extended frame, character by character: the letter, eight upper case digits of the identifier, the DLC, two lower case
digits for each byte. -/
theorem C47_text_partial (n : Nat) (hn : n < 2 ^ 29) (data : List Byte) (fd : Bool) :
    sendFrame ⟨n, data, true, fd⟩ = .ok ((((if fd then 'D' else 'T') :: (List.range 8).map fun k => upper (n / 16 ^ (7 - k) % 16)) ++
      upper (lenToDlc data.length) :: data.flatMap fun b => [lower (b.toNat / 16), lower (b.toNat % 16)]).map ascii ++ [13]) := by
  have hu : ∀ n : Nat, n < 16 → hexDigitU n = ascii (upper n) := by
    have : ∀ n : Fin 16, hexDigitU n = ascii (upper n) := by decide +kernel
    exact fun n h => this ⟨n, h⟩
  have hl : ∀ n : Nat, n < 16 → hexDigitL n = ascii (lower n) := by
    have : ∀ n : Fin 16, hexDigitL n = ascii (lower n) := by decide +kernel
    exact fun n h => this ⟨n, h⟩
  have h1 : padHex 8 n = ((List.range 8).map fun k => upper (n / 16 ^ (7 - k) % 16)).map ascii := by
    rw [padHex_eq 7 n (by have : 2 ^ 29 ≤ 16 ^ (7 + 1) := by decide
                          omega), List.map_map]
    apply List.map_congr_left
    intro k _
    exact hu _ (by omega)
  have h2 : b2aHex data = (data.flatMap fun b => [lower (b.toNat / 16), lower (b.toNat % 16)]).map ascii := by
    unfold b2aHex
    rw [List.map_flatMap]
    congr 1
    funext b
    have := b.isLt
    simp only [List.map_cons, List.map_nil, hl _ (show b.toNat / 16 < 16 by omega), hl _ (show b.toNat % 16 < 16 by omega)]
  have h3 := C52_bound data.length
  have h4 : (if fd then ch 'D' else ch 'T') = ascii (if fd then 'D' else 'T') := by cases fd <;> rfl
  simp only [sendFrame, if_true, Int.toNat_natCast, toHex_dlc, h1, h2, hu _ (show lenToDlc data.length < 16 by omega), h4]
  simp only [List.map_append, List.map_cons, List.append_assoc, List.cons_append, List.nil_append]
  rfl

/-- A frame on the wire. -/
example : (sendFrame ⟨0x1AB, [0x0F, 0xC4], true, false⟩).toOption = some ("T000001AB20fc4".toList.map ascii ++ [13]) := by decide +kernel

/-- Standard frames are received, though: a line `t`, three digits, the length and the data. -/
theorem C47_standard_rx (n : Nat) (hn : n < 2 ^ 11) (data : List Byte) (hd : data.length ≤ 8) :
    ∃ digits, digits.length = 3 ∧ (∀ d ∈ digits, IsHex d) ∧ digitsVal digits 0 = n ∧
      parseLine ([ch 't'] ++ digits ++ [hexDigitU data.length] ++ b2aHex data) =
        .ok (some ⟨⟨n, data, false, false⟩, none⟩) := by
  obtain ⟨h1, h2, h3, h4⟩ := toHex_spec n
  have hl := h4 2 (by have : 2 ^ 11 ≤ 16 ^ (2 + 1) := by decide
                      omega)
  obtain ⟨b1, b2, b3⟩ := b2aHex_spec data
  have hdl : dlcToLen data.length = data.length := by simp [dlcToLen, hd]
  generalize hdg : List.replicate (3 - (toHex n).length) (ch '0') ++ toHex n = digits
  have g1 : digits.length = 3 := by rw [← hdg, List.length_append, List.length_replicate]; omega
  have g2 : ∀ d ∈ digits, IsHex d := by
    intro d hd
    rw [← hdg] at hd
    rcases List.mem_append.1 hd with hd | hd
    · rw [List.eq_of_mem_replicate hd]; decide
    · exact h1 d hd
  have g3 : digitsVal digits 0 = n := by rw [← hdg, digitsVal_zeros, h2]; omega
  refine ⟨digits, g1, g2, g3, ?_⟩
  have hdgx : IsHex (hexDigitU data.length) := isHex_U _ (by omega)
  generalize hln : [ch 't'] ++ digits ++ [hexDigitU data.length] ++ b2aHex data = line
  have hln' : line = ch 't' :: (digits ++ hexDigitU data.length :: b2aHex data) := by rw [← hln]; simp
  have hhead : ∀ b, line.head? = some b → b = ch 't' := by
    intro b hb; rw [hln'] at hb; simpa using hb.symm
  have hlast : ∀ b, line.getLast? = some b → IsHex b := by
    intro b hb
    rw [hln', List.getLast?_cons, List.getLast?_append, List.getLast?_cons] at hb
    simp only [Option.some_or, Option.getD_some, Option.some.injEq] at hb
    cases hg : (b2aHex data).getLast? with
    | none => rw [hg] at hb; rw [← hb]; exact hdgx
    | some x => rw [hg] at hb; rw [← hb]; exact b1 x (List.mem_of_getLast? hg)
  have hs1 : stripBy isWs line = line :=
    stripBy_id (fun b hb => by rw [hhead b hb]; decide) (fun b hb => (isHex_plain b (hlast b hb)).1)
  have hs2 : stripBy (· == NACK) line = line :=
    stripBy_id (fun b hb => by rw [hhead b hb]; decide) (fun b hb => by simpa using (isHex_plain b (hlast b hb)).2.1)
  have hs3 : stripBy (· == ETX) line = line :=
    stripBy_id (fun b hb => by rw [hhead b hb]; decide) (fun b hb => by simpa using (isHex_plain b (hlast b hb)).2.2.1)
  simp only [parseLine, hs1, hs2, hs3]
  have e1 : (line.drop 1).take 3 = digits := by
    rw [hln', List.drop_one, List.tail_cons, List.take_left' g1]
  have e2 : line[1 + 3]? = some (hexDigitU data.length) := by
    rw [hln', Nat.add_comm, List.getElem?_cons_succ, List.getElem?_append_right (by omega), g1]
    rfl
  have e3 : line.drop (2 + 3) = b2aHex data := by
    rw [hln', show 2 + 3 = 4 + 1 from rfl, List.drop_succ_cons, List.drop_append, g1]
    simp [List.drop_of_length_le, g1]
  have e4 : (b2aHex data).take (data.length * 2) = b2aHex data := List.take_of_length_le (by omega)
  have e5 : pyInt16 digits = some (n : Int) := by
    rw [pyInt16_hex _ g2 (by intro h; rw [h] at g1; cases g1), g3]
  have e6 : hexVal (hexDigitU data.length) = some data.length := hexVal_U _ (by omega)
  have hll : line.length = 5 + data.length * 2 := by
    rw [hln']; simp only [List.length_cons, List.length_append, g1, b2]; omega
  split
  · simp at hll; omega
  · rename_i c rest
    have hc : c = ch 't' := hhead c rfl
    have hm' : header c = some (3, false) := by rw [hc]; decide
    rw [hm']
    simp only
    rw [e1, e5]
    simp only
    rw [e2]
    simp only
    rw [e6]
    simp only [hdl]
    rw [if_neg (by rintro (⟨h, -⟩ | ⟨-, h⟩); cases h; omega), e3, e4, b3]
    simp only
    rw [if_neg (by omega)]
    rfl

end Slcan
end Dronecan
