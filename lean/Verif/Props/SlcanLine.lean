import Verif.Props.Slcan

/-!
# What a received SLCAN line means (C73)
-/

namespace Dronecan
namespace Slcan
open Can

/-! ## Specification -/

/-- The value of a hexadecimal digit. -/
def digitValue (b : Byte) : Option Nat :=
  (("0123456789ABCDEF".toList.map ch).idxOf? b).or (("0123456789abcdef".toList.map ch).idxOf? b)

def IsDigit (b : Byte) : Prop := ∃ v, digitValue b = some v

/-- The number that digits stand for. -/
def hexNumber (ds : List Byte) : Nat := ds.foldl (fun acc d => 16 * acc + (digitValue d).getD 0) 0

/-- The bytes that pairs of digits stand for. -/
def hexBytes : List Byte → List Byte
  | a :: b :: rest => BitVec.ofNat 8 (16 * (digitValue a).getD 0 + (digitValue b).getD 0) :: hexBytes rest
  | _ => []

/-- What may stand around a line: white space, then NACKs, then ends of text, from the outside in. -/
def IsPadding (pre : List Byte) : Prop := ∃ w k e, pre = w ++ k ++ e ∧
  (∀ b ∈ w, b ∈ " \t\n\r\x0b\x0c".toList.map ch) ∧ (∀ b ∈ k, b = NACK) ∧ (∀ b ∈ e, b = ETX)

/-- The types of lines: the character, the number of digits of the identifier, CAN FD. -/
def lineTypes : List (Byte × Nat × Bool) := [(ch 'T', 8, false), (ch 't', 3, false), (ch 'D', 8, true)]

/-- The last four characters. -/
def lastFour (l : List Byte) : List Byte := l.drop (l.length - 4)

/-! ## Proofs -/

theorem digitValue_eq : ∀ b : Byte, digitValue b = hexVal b := by
  have : ∀ n : Fin 256, digitValue (BitVec.ofFin n) = hexVal (BitVec.ofFin n) := by decide +kernel
  intro b; exact this b.toFin

theorem isDigit_iff (b : Byte) : IsDigit b ↔ IsHex b := by
  unfold IsDigit IsHex
  rw [digitValue_eq]
  cases hexVal b <;> simp

theorem hexNumber_eq (ds : List Byte) : hexNumber ds = digitsVal ds 0 := by
  unfold hexNumber digitsVal
  congr 1
  funext a d
  rw [digitValue_eq, Nat.mul_comm]

theorem hexBytes_eq (n : Nat) : ∀ ds : List Byte, ds.length = 2 * n → (∀ d ∈ ds, IsHex d) →
    a2bHex ds = some (hexBytes ds) := by
  induction n with
  | zero => intro ds h _; rw [List.length_eq_zero_iff.1 h]; rfl
  | succ n ih =>
    intro ds h hx
    match ds, h with
    | a :: b :: rest, h =>
      have ha := hx a (by simp)
      have hb := hx b (by simp)
      have := ih rest (by simp only [List.length_cons] at h; omega) (fun d hd => hx d (by simp [hd]))
      unfold IsHex at ha hb
      cases hva : hexVal a with
      | none => exact absurd hva ha
      | some va =>
        cases hvb : hexVal b with
        | none => exact absurd hvb hb
        | some vb => simp only [a2bHex, hexBytes, digitValue_eq, hva, hvb, this, Option.getD_some, Nat.mul_comm]

theorem a2bHex_odd (n : Nat) : ∀ ds : List Byte, ds.length = 2 * n + 1 → a2bHex ds = none := by
  induction n with
  | zero => intro ds h; match ds, h with | [_], _ => rfl
  | succ n ih =>
    intro ds h
    match ds, h with
    | a :: b :: rest, h =>
      have := ih rest (by simp only [List.length_cons] at h; omega)
      simp only [a2bHex, this]
      split <;> simp_all

theorem stripBy_pad {p : Byte → Bool} {pre post l : List Byte} (h1 : ∀ b ∈ pre, p b = true) (h2 : ∀ b ∈ post, p b = true)
    (hl : l ≠ []) (h3 : ∀ b, l.head? = some b → p b = false) (h4 : ∀ b, l.getLast? = some b → p b = false) :
    stripBy p (pre ++ l ++ post) = l := by
  have hd : ∀ (a b : List Byte), (∀ x ∈ a, p x = true) → b ≠ [] → (∀ x, b.head? = some x → p x = false) →
      (a ++ b).dropWhile p = b := by
    intro a b ha hb hb'
    induction a with
    | nil => exact dropWhile_head hb'
    | cons x a ih =>
      rw [List.cons_append, List.dropWhile_cons, ha x List.mem_cons_self]
      exact ih fun y hy => ha y (List.mem_cons_of_mem _ hy)
  unfold stripBy
  rw [List.append_assoc, hd pre (l ++ post) h1 (by simp [hl]) (by
    intro x hx
    cases l with
    | nil => exact absurd rfl hl
    | cons y l => exact h3 x (by simpa using hx)), List.reverse_append, hd post.reverse l.reverse
      (fun x hx => h2 x (List.mem_reverse.1 hx)) (by simpa using hl) (by intro x hx; exact h4 x (by rwa [← List.head?_reverse])),
    List.reverse_reverse]

theorem isWs_iff : ∀ b : Byte, b ∈ " \t\n\r\x0b\x0c".toList.map ch ↔ isWs b = true := by
  have : ∀ n : Fin 256, (BitVec.ofFin n : Byte) ∈ " \t\n\r\x0b\x0c".toList.map ch ↔ isWs (BitVec.ofFin n) = true := by
    decide +kernel
  intro b; exact this b.toFin

theorem head?_append_ne {a b : List Byte} (h : a ≠ []) : (a ++ b).head? = a.head? := by
  cases a with
  | nil => exact absurd rfl h
  | cons x a => rfl

theorem getLast?_append_ne {a b : List Byte} (h : b ≠ []) : (a ++ b).getLast? = b.getLast? := by
  rw [← List.head?_reverse, ← List.head?_reverse, List.reverse_append, head?_append_ne (by simpa using h)]

/-- The padding is removed. -/
theorem strip_padding (pre post l : List Byte) (hpre : IsPadding pre) (hpost : IsPadding post.reverse) (hl : l ≠ [])
    (h : ∀ b, l.head? = some b ∨ l.getLast? = some b → isWs b = false ∧ b ≠ NACK ∧ b ≠ ETX) :
    stripBy (· == ETX) (stripBy (· == NACK) (stripBy isWs (pre ++ l ++ post))) = l := by
  obtain ⟨w, k, e, rfl, hw, hk, he⟩ := hpre
  obtain ⟨w', k', e', hp, hw', hk', he'⟩ := hpost
  have hp : post = e'.reverse ++ k'.reverse ++ w'.reverse := by
    have := congrArg List.reverse hp
    simpa using this
  subst hp
  have hkws : isWs NACK = false ∧ isWs ETX = false ∧ (ETX == NACK) = false := by decide
  have hh : ∀ (a : List Byte) (b : Byte), (a ++ l).head? = some b → b ∈ a ∨ l.head? = some b := by
    intro a b hb
    cases a with
    | nil => exact .inr hb
    | cons x a => left; simp at hb; simp [hb]
  have hg : ∀ (a : List Byte) (b : Byte), (l ++ a).getLast? = some b → b ∈ a ∨ l.getLast? = some b := by
    intro a b hb
    rw [List.getLast?_append] at hb
    cases ha : a.getLast? with
    | none => rw [ha] at hb; exact .inr (by simpa using hb)
    | some x => rw [ha] at hb; simp at hb; subst hb; exact .inl (List.mem_of_getLast? ha)
  have s1 : stripBy isWs (w ++ k ++ e ++ l ++ (e'.reverse ++ k'.reverse ++ w'.reverse)) =
      k ++ (e ++ l ++ e'.reverse) ++ k'.reverse := by
    have : w ++ k ++ e ++ l ++ (e'.reverse ++ k'.reverse ++ w'.reverse) =
        w ++ (k ++ (e ++ l ++ e'.reverse) ++ k'.reverse) ++ w'.reverse := by simp
    rw [this]
    refine stripBy_pad (fun b hb => (isWs_iff b).1 (hw b hb))
      (fun b hb => (isWs_iff b).1 (hw' b (List.mem_reverse.1 hb))) (by simp [hl]) ?_ ?_
    · intro b hb
      have : (k ++ e ++ l ++ (e'.reverse ++ k'.reverse)).head? = some b := by simpa using hb
      rw [head?_append_ne (by simp [hl])] at this
      rcases hh (k ++ e) b this with hb | hb
      · rcases List.mem_append.1 hb with hb | hb
        · rw [hk b hb]; exact hkws.1
        · rw [he b hb]; exact hkws.2.1
      · exact (h b (.inl hb)).1
    · intro b hb
      have : (k ++ e ++ (l ++ (e'.reverse ++ k'.reverse))).getLast? = some b := by simpa using hb
      rw [getLast?_append_ne (by simp [hl])] at this
      rcases hg _ b this with hb | hb
      · rcases List.mem_append.1 hb with hb | hb
        · rw [he' b (List.mem_reverse.1 hb)]; exact hkws.2.1
        · rw [hk' b (List.mem_reverse.1 hb)]; exact hkws.1
      · exact (h b (.inr hb)).1
  have s2 : stripBy (· == NACK) (k ++ (e ++ l ++ e'.reverse) ++ k'.reverse) = e ++ l ++ e'.reverse := by
    refine stripBy_pad (fun b hb => by simp [hk b hb]) (fun b hb => by simp [hk' b (List.mem_reverse.1 hb)])
      (by simp [hl]) ?_ ?_
    · intro b hb
      rw [head?_append_ne (by simp [hl])] at hb
      rcases hh e b hb with hb | hb
      · rw [he b hb]; exact hkws.2.2
      · simpa using (h b (.inl hb)).2.1
    · intro b hb
      rw [List.append_assoc, getLast?_append_ne (by simp [hl])] at hb
      rcases hg _ b hb with hb | hb
      · rw [he' b (List.mem_reverse.1 hb)]; exact hkws.2.2
      · simpa using (h b (.inr hb)).2.1
  have s3 : stripBy (· == ETX) (e ++ l ++ e'.reverse) = l :=
    stripBy_pad (fun b hb => by simp [he b hb]) (fun b hb => by simp [he' b (List.mem_reverse.1 hb)]) hl
      (fun b hb => by simpa using (h b (.inl hb)).2.2) (fun b hb => by simpa using (h b (.inr hb)).2.2)
  rw [s1, s2, s3]

/-- How a line of digits is parsed. -/
theorem parse_core (pre post : List Byte) (hpre : IsPadding pre) (hpost : IsPadding post.reverse)
    (type : Byte) (n : Nat) (fd : Bool) (hty : (type, n, fd) ∈ lineTypes) (ids : List Byte) (d : Byte) (rest : List Byte)
    (hn : ids.length = n) (hx : ∀ b ∈ ids ++ d :: rest, IsHex b) :
    ∃ dlc, hexVal d = some dlc ∧ parseLine (pre ++ (type :: ids ++ d :: rest) ++ post) =
      if fd = false ∧ dlcToLen dlc > 8 then .error .driverError
      else match a2bHex (rest.take (dlcToLen dlc * 2)) with
        | none => .error .valueError
        | some data => .ok (some ⟨⟨(digitsVal ids 0 : Nat), data, n == 8, fd⟩,
            if rest.length > dlcToLen dlc * 2 then
              some ((digitsVal (lastFour (ids ++ d :: rest)) 0 : Nat) : Int) else none⟩) := by
  have hty' : header type = some (n, fd) ∧ isWs type = false ∧ type ≠ NACK ∧ type ≠ ETX ∧ (n = 8 ∨ n = 3) := by
    have : ∀ x ∈ lineTypes, header x.1 = some (x.2.1, x.2.2) ∧ isWs x.1 = false ∧ x.1 ≠ NACK ∧ x.1 ≠ ETX ∧
        (x.2.1 = 8 ∨ x.2.1 = 3) := by decide +kernel
    exact this _ hty
  obtain ⟨t1, t2, t3, t4, t5⟩ := hty'
  have hd : IsHex d := hx d (by simp)
  have hrest : ∀ b ∈ rest, IsHex b := fun b hb => hx b (by simp [hb])
  have hids : ∀ b ∈ ids, IsHex b := fun b hb => hx b (by simp [hb])
  cases hv : hexVal d with
  | none => exact absurd hv hd
  | some dlc =>
    refine ⟨dlc, rfl, ?_⟩
    have hdlc : dlcToLen dlc ≤ 64 := by
      have h1 : dlc < 16 := by
        have : ∀ b : Byte, ∀ v, hexVal b = some v → v < 16 := by
          have : ∀ n : Fin 256, ∀ v, hexVal (BitVec.ofFin n) = some v → v < 16 := by
            intro n v hv
            have h2 : ∀ n : Fin 256, (hexVal (BitVec.ofFin n)).getD 0 < 16 := by decide +kernel
            have := h2 n
            rw [hv] at this
            exact this
          intro b; exact this b.toFin
        exact this d dlc hv
      have h2 : ∀ k : Fin 16, dlcToLen k ≤ 64 := by decide +kernel
      exact h2 ⟨dlc, h1⟩
    have hstrip := strip_padding pre post (type :: ids ++ d :: rest) hpre hpost (by simp) (by
      rintro b (hb | hb)
      · simp at hb; subst hb; exact ⟨t2, t3, t4⟩
      · have hb' : (d :: rest).getLast? = some b := by
          rw [getLast?_append_ne (by simp)] at hb; exact hb
        have hb := isHex_plain b (hx b (List.mem_append_right _ (List.mem_of_getLast? hb')))
        exact ⟨hb.1, hb.2.1, hb.2.2.1⟩)
    generalize hL : type :: ids ++ d :: rest = L at hstrip
    have e0 : L.length = 2 + n + rest.length := by
      rw [← hL, ← hn]; simp only [List.cons_append, List.length_cons, List.length_append]; omega
    have e1 : (L.drop 1).take n = ids := by
      rw [← hL, List.cons_append, List.drop_one, List.tail_cons, List.take_left' hn]
    have e2 : L[1 + n]? = some d := by
      rw [← hL, List.cons_append, Nat.add_comm, List.getElem?_cons_succ, List.getElem?_append_right (by omega), hn]
      simp
    have e3 : L.drop (2 + n) = rest := by
      rw [← hL, List.cons_append, show 2 + n = (n + 1) + 1 by omega, List.drop_succ_cons, List.drop_append, hn]
      simp [List.drop_of_length_le, hn]
    have e4 : pyInt16 ids = some ((digitsVal ids 0 : Nat) : Int) :=
      pyInt16_hex ids hids (by intro h; rw [h] at hn; simp at hn; omega)
    have e5 : L.drop (L.length - 4) = lastFour (ids ++ d :: rest) := by
      have hl1 : L.length - 4 = ((ids ++ d :: rest).length - 4) + 1 := by
        rw [e0, ← hn]; simp only [List.length_append, List.length_cons]; omega
      rw [hl1, ← hL]
      rfl
    have e6 : pyInt16 (L.drop (L.length - 4)) = some ((digitsVal (lastFour (ids ++ d :: rest)) 0 : Nat) : Int) := by
      rw [e5]
      refine pyInt16_hex _ (fun b hb => hx b (List.mem_of_mem_drop hb)) ?_
      intro h
      have := congrArg List.length h
      simp only [lastFour, List.length_drop, List.length_append, List.length_cons, List.length_nil, hn] at this
      omega
    simp only [parseLine, hstrip]
    cases hLc : L with
    | nil => rw [hLc] at e0; simp at e0; omega
    | cons c L' =>
      have hc : c = type := by
        have := hL.trans hLc
        rw [List.cons_append] at this
        injection this with h1 _
        exact h1.symm
      subst hc
      dsimp only
      rw [t1]
      dsimp only
      rw [← hLc, e1, e4]
      dsimp only
      rw [e2]
      dsimp only
      rw [hv]
      dsimp only
      rw [e3, e0]
      by_cases hbad : fd = false ∧ dlcToLen dlc > 8
      · rw [if_pos (.inr hbad), if_pos hbad]
      · rw [if_neg (by rintro (⟨-, h⟩ | h); · omega
                       · exact hbad h), if_neg hbad]
        cases a2bHex (rest.take (dlcToLen dlc * 2)) with
        | none => rfl
        | some data =>
          dsimp only
          rw [← e0, e6]
          by_cases hm : rest.length > dlcToLen dlc * 2
          · rw [if_pos hm, if_pos (by omega)]
          · rw [if_neg hm, if_neg (by omega)]

theorem dlc_length (d : Byte) (dlc : Nat) (h : hexVal d = some dlc) : fdLengths[dlc]? = some (dlcToLen dlc) := by
  have h1 : ∀ n : Fin 256, fdLengths[(hexVal (BitVec.ofFin n)).getD 0]? = some (dlcToLen ((hexVal (BitVec.ofFin n)).getD 0)) := by
    decide +kernel
  have := h1 d.toFin
  rw [show (BitVec.ofFin d.toFin) = d from rfl, h] at this
  exact this

/-! ## Theorems -/

/-- A line that consists of a type, an identifier, a length, and as many pairs of digits as the length says, possibly
followed by more digits, with any padding around it, is the frame that it says; without CAN FD, if the length is at most
8, and an error otherwise. If there is anything after the data, the last four characters are the time stamp. -/
theorem C73_line (pre post : List Byte) (hpre : IsPadding pre) (hpost : IsPadding post.reverse)
    (type : Byte) (n : Nat) (fd : Bool) (hty : (type, n, fd) ∈ lineTypes) (ids : List Byte) (d : Byte) (ds extra : List Byte)
    (dlc len : Nat) (hn : ids.length = n) (hx : ∀ b ∈ ids ++ d :: (ds ++ extra), IsDigit b)
    (hd : digitValue d = some dlc) (hlen : fdLengths[dlc]? = some len) (hds : ds.length = 2 * len) :
    parseLine (pre ++ (type :: ids ++ d :: (ds ++ extra)) ++ post) =
      if fd = false ∧ len > 8 then .error .driverError
      else .ok (some ⟨⟨(hexNumber ids : Nat), hexBytes ds, decide (n = 8), fd⟩,
        if extra = [] then none else some ((hexNumber (lastFour (ids ++ d :: (ds ++ extra))) : Nat) : Int)⟩) := by
  obtain ⟨dlc', h1, h2⟩ := parse_core pre post hpre hpost type n fd hty ids d (ds ++ extra) hn
    (fun b hb => (isDigit_iff b).1 (hx b hb))
  rw [digitValue_eq, h1] at hd
  injection hd with hd
  subst hd
  have h3 := dlc_length d dlc' h1
  rw [hlen] at h3
  injection h3 with h3
  rw [← h3] at h2
  rw [h2, List.take_left' (by omega), hexBytes_eq len ds hds (fun b hb => (isDigit_iff b).1 (hx b (by simp [hb])))]
  rw [hexNumber_eq, hexNumber_eq]
  have h4 : ((ds ++ extra).length > len * 2) = (extra ≠ []) := by
    rw [List.length_append, hds, ← List.length_pos_iff]
    exact propext ⟨fun h => by omega, fun h => by omega⟩
  simp only [h4, ite_not]
  congr

/-- A line that ends before the data is complete is not refused: if the number of digits is even, it is a frame with
fewer bytes than the length says. -/
theorem C73_short (pre post : List Byte) (hpre : IsPadding pre) (hpost : IsPadding post.reverse)
    (type : Byte) (n : Nat) (fd : Bool) (hty : (type, n, fd) ∈ lineTypes) (ids : List Byte) (d : Byte) (ds : List Byte)
    (dlc len k : Nat) (hn : ids.length = n) (hx : ∀ b ∈ ids ++ d :: ds, IsDigit b)
    (hd : digitValue d = some dlc) (hlen : fdLengths[dlc]? = some len) (hshort : ds.length < 2 * len)
    (hfd : fd = true ∨ len ≤ 8) :
    (ds.length = 2 * k → parseLine (pre ++ (type :: ids ++ d :: ds) ++ post) =
      .ok (some ⟨⟨(hexNumber ids : Nat), hexBytes ds, decide (n = 8), fd⟩, none⟩)) ∧
    (ds.length = 2 * k + 1 → parseLine (pre ++ (type :: ids ++ d :: ds) ++ post) = .error .valueError) := by
  obtain ⟨dlc', h1, h2⟩ := parse_core pre post hpre hpost type n fd hty ids d ds hn
    (fun b hb => (isDigit_iff b).1 (hx b hb))
  rw [digitValue_eq, h1] at hd
  injection hd with hd
  subst hd
  have h3 := dlc_length d dlc' h1
  rw [hlen] at h3
  injection h3 with h3
  rw [← h3] at h2
  have hok : ¬ (fd = false ∧ len > 8) := by
    rintro ⟨a, b⟩
    rcases hfd with h | h
    · rw [a] at h; cases h
    · omega
  rw [h2, List.take_of_length_le (by omega), if_neg hok]
  constructor
  · intro hk
    rw [hexBytes_eq k ds hk (fun b hb => (isDigit_iff b).1 (hx b (by simp [hb]))), hexNumber_eq, if_neg (by omega)]
    congr
  · intro hk
    rw [a2bHex_odd k ds hk]

theorem a2bHex_length (l : List Byte) : ∀ data, a2bHex l = some data → 2 * data.length = l.length := by
  fun_induction a2bHex l with
  | case1 => intro data h; injection h with h; subst h; rfl
  | case2 => intro data h; cases h
  | case3 a b rest x y r hx hy hr ih =>
    intro data h
    injection h with h
    subst h
    have := ih r (by assumption)
    simp only [List.length_cons]
    omega
  | case4 => intro data h; cases h

/-- Whatever a line contains: a frame delivered for it has at most 64 bytes, at most 8 without CAN FD. -/
theorem C73_bound (line : List Byte) (p : Parsed) (h : parseLine line = .ok (some p)) :
    p.frame.data.length ≤ if p.frame.canfd then 64 else 8 := by
  unfold parseLine at h
  dsimp only at h
  generalize stripBy (· == ETX) (stripBy (· == NACK) (stripBy isWs line)) = l at h
  split at h
  · cases h
  · rename_i c rest
    split at h
    · cases h
    · rename_i idLen canfd hh
      split at h
      · cases h
      · split at h
        · cases h
        · split at h
          · cases h
          · rename_i dlc hdlc
            split at h
            · cases h
            · rename_i hlen
              split at h
              · cases h
              · rename_i data hdata
                have hl := a2bHex_length _ _ hdata
                have h1 := List.length_take_le (dlcToLen dlc * 2) (List.drop (2 + idLen) (c :: rest))
                have hle : data.length ≤ if canfd then 64 else 8 := by
                  cases canfd <;> simp_all <;> omega
                split at h
                · split at h
                  · cases h
                  · injection h with h; injection h with h; subst h; exact hle
                · injection h with h; injection h with h; subst h; exact hle

example : IsPadding (" \n".toList.map ch ++ [NACK] ++ [ETX]) :=
  ⟨" \n".toList.map ch, [NACK], [ETX], rfl, by decide, by decide, by decide⟩
example : parseLine (" \n".toList.map ch ++ [NACK, ETX] ++ "t7FF2aBcD1234".toList.map ch ++ [13]) =
    .ok (some ⟨⟨0x7FF, [0xAB, 0xCD], false, false⟩, some 0x1234⟩) := by decide +kernel
/-- With one character after the data, the time stamp includes the end of the data. -/
example : parseLine ("T0000000A2aBcD1".toList.map ch) = .ok (some ⟨⟨10, [0xAB, 0xCD], true, false⟩, some 0xBCD1⟩) := by
  decide +kernel
/-- An identifier can be negative. -/
example : parseLine ("T-00000010".toList.map ch) = .ok (some ⟨⟨-1, [], true, false⟩, none⟩) := by decide +kernel

/-! ### What counts as a number -/

/-- More digits after the number `acc`, each of which may have one underscore before it. -/
inductive Digits : Nat → List Byte → Nat → Prop
  | done (acc : Nat) : Digits acc [] acc
  | digit {acc v n : Nat} {d : Byte} {ds : List Byte} : digitValue d = some v → Digits (16 * acc + v) ds n →
      Digits acc (d :: ds) n
  | under {acc v n : Nat} {d : Byte} {ds : List Byte} : digitValue d = some v → Digits (16 * acc + v) ds n →
      Digits acc (ch '_' :: d :: ds) n

/-- A digit and more digits. -/
def Unsigned (s : List Byte) (n : Nat) : Prop := ∃ d v ds, s = d :: ds ∧ digitValue d = some v ∧ Digits v ds n

/-- A number in base 16 the way Python reads it: blanks, a sign, a prefix and the digits. -/
def Numeral (s : List Byte) (x : Int) : Prop := ∃ pre sign prefix' body post n,
  s = pre ++ (sign ++ (prefix' ++ body)) ++ post ∧
  (∀ b ∈ pre, b ∈ " \t\n\r\x0b\x0c".toList.map ch) ∧ (∀ b ∈ post, b ∈ " \t\n\r\x0b\x0c".toList.map ch) ∧
  prefix' ∈ ["", "0x", "0X", "0x_", "0X_"].map (fun t : String => t.toList.map ch) ∧ Unsigned body n ∧
  (((sign = [] ∨ sign = [ch '+']) ∧ x = n) ∨ (sign = [ch '-'] ∧ x = -(n : Int)))

theorem not_digit_underscore {v : Nat} : ¬ digitValue (ch '_') = some v := by
  intro h; rw [show digitValue (ch '_') = none by decide +kernel] at h; cases h

theorem intDigits_iff (s : List Byte) : ∀ (acc n : Nat),
    (intDigits s true acc = some n ↔ Digits acc s n) ∧
    (intDigits s false acc = some n ↔ ∃ d v ds, s = d :: ds ∧ digitValue d = some v ∧ Digits (16 * acc + v) ds n) := by
  induction s with
  | nil =>
    intro acc n
    constructor
    · constructor
      · intro h; simp only [intDigits, if_true] at h; cases h; exact .done _
      · intro h; cases h; rfl
    · constructor
      · intro h; simp [intDigits] at h
      · rintro ⟨d, v, ds, h, _⟩; cases h
  | cons c cs ih =>
    intro acc n
    by_cases hc : c = ch '_'
    · subst hc
      constructor
      · rw [show intDigits (ch '_' :: cs) true acc = intDigits cs false acc by simp [intDigits], (ih acc n).2]
        constructor
        · rintro ⟨d, v, ds, rfl, hd, ht⟩; exact .under hd ht
        · intro h
          cases h with
          | digit hd _ => exact absurd hd not_digit_underscore
          | under hd ht => exact ⟨_, _, _, rfl, hd, ht⟩
      · rw [show intDigits (ch '_' :: cs) false acc = none by simp [intDigits]]
        constructor
        · intro h; cases h
        · rintro ⟨d, v, ds, h, hd, _⟩; cases h; exact absurd hd not_digit_underscore
    · have e : ∀ prev, intDigits (c :: cs) prev acc = (digitValue c).bind fun d => intDigits cs true (16 * acc + d) := by
        intro prev
        rw [digitValue_eq]
        simp only [intDigits, if_neg hc]
        cases hexVal c with
        | none => rfl
        | some d => simp [Nat.mul_comm]
      rw [e, e]
      have key : ((digitValue c).bind fun d => intDigits cs true (16 * acc + d)) = some n ↔
          ∃ v, digitValue c = some v ∧ Digits (16 * acc + v) cs n := by
        cases hv : digitValue c with
        | none => simp
        | some v => simp [(ih (16 * acc + v) n).1]
      rw [key]
      constructor
      · constructor
        · rintro ⟨v, hv, ht⟩; exact .digit hv ht
        · intro h
          cases h with
          | digit hd ht => exact ⟨_, hd, ht⟩
          | under hd ht => exact absurd rfl hc
      · constructor
        · rintro ⟨v, hv, ht⟩; exact ⟨_, _, _, rfl, hv, ht⟩
        · rintro ⟨d, v, ds, h, hv, ht⟩; cases h; exact ⟨v, hv, ht⟩

theorem intDigits_unsigned (s : List Byte) (n : Nat) : intDigits s false 0 = some n ↔ Unsigned s n := by
  rw [(intDigits_iff s 0 n).2]
  simp [Unsigned]

theorem intBody_iff (s : List Byte) (n : Nat) : intBody s = some n ↔
    ∃ p body, s = p ++ body ∧ p ∈ ["", "0x", "0X", "0x_", "0X_"].map (fun t : String => t.toList.map ch) ∧ Unsigned body n := by
  have hps : ["", "0x", "0X", "0x_", "0X_"].map (fun t : String => t.toList.map ch) =
      [[], [ch '0', ch 'x'], [ch '0', ch 'X'], [ch '0', ch 'x', ch '_'], [ch '0', ch 'X', ch '_']] := by decide +kernel
  rw [hps]
  have plain : ∀ t, intDigits t false 0 = some n → ∃ p body, t = p ++ body ∧
      p ∈ [[], [ch '0', ch 'x'], [ch '0', ch 'X'], [ch '0', ch 'x', ch '_'], [ch '0', ch 'X', ch '_']] ∧ Unsigned body n :=
    fun t h => ⟨[], t, rfl, by simp, (intDigits_unsigned t n).1 h⟩
  have hx : ¬ ∃ v, digitValue (ch 'x') = some v := by
    rintro ⟨v, h⟩; rw [show digitValue (ch 'x') = none by decide +kernel] at h; cases h
  have hX : ¬ ∃ v, digitValue (ch 'X') = some v := by
    rintro ⟨v, h⟩; rw [show digitValue (ch 'X') = none by decide +kernel] at h; cases h
  have xu : ch 'x' ≠ ch '_' := by decide
  have Xu : ch 'X' ≠ ch '_' := by decide
  constructor
  · intro h
    match s, h with
    | [], h => exact plain _ h
    | [a], h => exact plain _ h
    | a :: b :: rest, h =>
      unfold intBody at h
      by_cases hp : a = ch '0' ∧ (b = ch 'x' ∨ b = ch 'X')
      · simp only [if_pos hp] at h
        cases rest with
        | nil => cases h
        | cons c rest' =>
          obtain ⟨rfl, hb⟩ := hp
          by_cases hc : c = ch '_'
          · simp only [if_pos hc] at h
            subst hc
            refine ⟨[ch '0', b, ch '_'], rest', rfl, ?_, (intDigits_unsigned _ n).1 h⟩
            rcases hb with rfl | rfl <;> simp
          · simp only [if_neg hc] at h
            refine ⟨[ch '0', b], c :: rest', rfl, ?_, (intDigits_unsigned _ n).1 h⟩
            rcases hb with rfl | rfl <;> simp
      · simp only [if_neg hp] at h
        exact plain _ h
  · rintro ⟨p, body, rfl, hp, hu⟩
    have hu' := (intDigits_unsigned body n).2 hu
    obtain ⟨d, v, ds, rfl, hd, ht⟩ := hu
    have hdu : d ≠ ch '_' := by rintro rfl; exact not_digit_underscore hd
    simp only [List.mem_cons, List.not_mem_nil, or_false] at hp
    rcases hp with rfl | rfl | rfl | rfl | rfl
    · rw [List.nil_append]
      cases ds with
      | nil => exact hu'
      | cons b ds =>
        have hb : ¬ (d = ch '0' ∧ (b = ch 'x' ∨ b = ch 'X')) := by
          rintro ⟨_, rfl | rfl⟩
          · cases ht with
            | digit h _ => exact hx ⟨_, h⟩
          · cases ht with
            | digit h _ => exact hX ⟨_, h⟩
        unfold intBody
        simp only [if_neg hb]
        exact hu'
    all_goals simp [intBody, hdu, hu']

theorem notWs_digit : ∀ (b : Byte) (v : Nat), digitValue b = some v → isWs b = false := by
  have : ∀ n : Fin 256, (digitValue (BitVec.ofFin n)).isSome = true → isWs (BitVec.ofFin n) = false := by decide +kernel
  intro b v h
  exact this b.toFin (by show (digitValue b).isSome = true; rw [h]; rfl)

theorem digits_notWs {acc n : Nat} {ds : List Byte} (h : Digits acc ds n) : ∀ b ∈ ds, isWs b = false := by
  induction h with
  | done => intro b hb; cases hb
  | digit hd _ ih =>
    intro b hb
    rcases List.mem_cons.1 hb with rfl | hb
    · exact notWs_digit _ _ hd
    · exact ih b hb
  | under hd _ ih =>
    intro b hb
    rcases List.mem_cons.1 hb with rfl | hb
    · decide
    · rcases List.mem_cons.1 hb with rfl | hb
      · exact notWs_digit _ _ hd
      · exact ih b hb

theorem unsigned_notWs {s : List Byte} {n : Nat} (h : Unsigned s n) : ∀ b ∈ s, isWs b = false := by
  obtain ⟨d, v, ds, rfl, hd, ht⟩ := h
  intro b hb
  rcases List.mem_cons.1 hb with rfl | hb
  · exact notWs_digit _ _ hd
  · exact digits_notWs ht b hb

/-- What is removed at both ends. -/
theorem stripBy_split (p : Byte → Bool) (l : List Byte) : ∃ pre post, l = pre ++ stripBy p l ++ post ∧
    (∀ b ∈ pre, p b = true) ∧ (∀ b ∈ post, p b = true) := by
  have tw : ∀ (l : List Byte), ∀ b ∈ l.takeWhile p, p b = true := by
    intro l b hb
    exact List.all_eq_true.1 (List.all_takeWhile (l := l) (p := p)) b hb
  refine ⟨l.takeWhile p, ((l.dropWhile p).reverse.takeWhile p).reverse, ?_, tw l, ?_⟩
  · unfold stripBy
    rw [List.append_assoc, ← List.reverse_append, List.takeWhile_append_dropWhile, List.reverse_reverse,
      List.takeWhile_append_dropWhile]
  · intro b hb
    exact tw _ b (List.mem_reverse.1 hb)

/-- **C73**, exactly which texts are read as numbers (identifiers, lengths and time stamps), and as which. -/
theorem C73_number (s : List Byte) (x : Int) : pyInt16 s = some x ↔ Numeral s x := by
  constructor
  · intro h
    obtain ⟨pre, post, hs, h1, h2⟩ := stripBy_split isWs s
    unfold pyInt16 at h
    generalize stripBy isWs s = t at h hs
    have w1 : ∀ b ∈ pre, b ∈ " \t\n\r\x0b\x0c".toList.map ch := fun b hb => (isWs_iff b).2 (h1 b hb)
    have w2 : ∀ b ∈ post, b ∈ " \t\n\r\x0b\x0c".toList.map ch := fun b hb => (isWs_iff b).2 (h2 b hb)
    cases t with
    | nil => cases h
    | cons c rest =>
      by_cases hc : c = ch '+'
      · simp only [if_pos hc] at h
        obtain ⟨n, hn, rfl⟩ := Option.map_eq_some_iff.1 h
        obtain ⟨p, body, rfl, hp, hu⟩ := (intBody_iff rest n).1 hn
        exact ⟨pre, [c], p, body, post, n, hs, w1, w2, hp, hu, .inl ⟨.inr (by rw [hc]), rfl⟩⟩
      · simp only [if_neg hc] at h
        by_cases hm : c = ch '-'
        · simp only [if_pos hm] at h
          obtain ⟨n, hn, rfl⟩ := Option.map_eq_some_iff.1 h
          obtain ⟨p, body, rfl, hp, hu⟩ := (intBody_iff rest n).1 hn
          exact ⟨pre, [c], p, body, post, n, hs, w1, w2, hp, hu, .inr ⟨by rw [hm], rfl⟩⟩
        · simp only [if_neg hm] at h
          obtain ⟨n, hn, rfl⟩ := Option.map_eq_some_iff.1 h
          obtain ⟨p, body, e, hp, hu⟩ := (intBody_iff _ n).1 hn
          exact ⟨pre, [], p, body, post, n, by rw [hs, e]; rfl, w1, w2, hp, hu, .inl ⟨.inl rfl, rfl⟩⟩
  · rintro ⟨pre, sign, p, body, post, n, rfl, w1, w2, hp, hu, hx⟩
    have hb := (intBody_iff (p ++ body) n).2 ⟨p, body, rfl, hp, hu⟩
    have hpw : ∀ b ∈ p, isWs b = false := by
      have : ∀ q ∈ ["", "0x", "0X", "0x_", "0X_"].map (fun t : String => t.toList.map ch), ∀ b ∈ q, isWs b = false := by
        decide +kernel
      exact this p hp
    have hsw : ∀ b ∈ sign, isWs b = false := by
      rcases hx with ⟨rfl | rfl, _⟩ | ⟨rfl, _⟩ <;> decide
    have hall : ∀ b ∈ sign ++ (p ++ body), isWs b = false := by
      intro b h
      rcases List.mem_append.1 h with h | h
      · exact hsw b h
      · rcases List.mem_append.1 h with h | h
        · exact hpw b h
        · exact unsigned_notWs hu b h
    have hne : p ++ body ≠ [] := by
      obtain ⟨d, v, ds, rfl, _⟩ := hu
      simp
    have hstrip : stripBy isWs (pre ++ (sign ++ (p ++ body)) ++ post) = sign ++ (p ++ body) :=
      stripBy_pad (fun b hb => (isWs_iff b).1 (w1 b hb)) (fun b hb => (isWs_iff b).1 (w2 b hb)) (by simp at hne ⊢; intro _; exact hne)
        (fun b h => hall b (List.mem_of_head? h)) (fun b h => hall b (List.mem_of_getLast? h))
    unfold pyInt16
    rw [hstrip]
    rcases hx with ⟨rfl | rfl, rfl⟩ | ⟨rfl, rfl⟩
    · have hns : ∀ c rest, p ++ body = c :: rest → c ≠ ch '+' ∧ c ≠ ch '-' := by
        intro c rest e
        have : c ∈ [ch '0'] ∨ ∃ v, digitValue c = some v := by
          have hps : ["", "0x", "0X", "0x_", "0X_"].map (fun t : String => t.toList.map ch) =
            [[], [ch '0', ch 'x'], [ch '0', ch 'X'], [ch '0', ch 'x', ch '_'], [ch '0', ch 'X', ch '_']] := by decide +kernel
          rw [hps] at hp
          obtain ⟨d, v, ds, rfl, hd, _⟩ := hu
          simp only [List.mem_cons, List.not_mem_nil, or_false] at hp
          rcases hp with rfl | rfl | rfl | rfl | rfl
          · right; injection e with e1 _; exact ⟨v, e1 ▸ hd⟩
          all_goals left; injection e with e1 _; simp [e1]
        constructor
        · rintro rfl
          rcases this with h | ⟨v, h⟩
          · revert h; decide
          · rw [show digitValue (ch '+') = none by decide +kernel] at h; cases h
        · rintro rfl
          rcases this with h | ⟨v, h⟩
          · revert h; decide
          · rw [show digitValue (ch '-') = none by decide +kernel] at h; cases h
      rw [List.nil_append]
      cases hq : p ++ body with
      | nil => exact absurd hq hne
      | cons c rest =>
        obtain ⟨h1, h2⟩ := hns c rest hq
        simp only [if_neg h1, if_neg h2]
        rw [← hq, hb]
        rfl
    · simp only [List.cons_append, List.nil_append, if_true]
      rw [hb]; rfl
    · simp only [List.cons_append, List.nil_append, if_neg (show ¬ ch '-' = ch '+' by decide), if_true]
      rw [hb]; rfl

example : pyInt16 (" -0X_1_2f\n".toList.map ch) = some (-0x12F) := by decide +kernel
example : pyInt16 ("1__2".toList.map ch) = none ∧ pyInt16 ("_1".toList.map ch) = none ∧ pyInt16 ("1_".toList.map ch) = none ∧
    pyInt16 ("0x".toList.map ch) = none ∧ pyInt16 ("- 1".toList.map ch) = none := by decide +kernel
example : Numeral ("1_2".toList.map ch) 0x12 := (C73_number _ _).1 (by decide +kernel)

end Slcan
end Dronecan
