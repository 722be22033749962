import Verif.Model.FrameText

/-!
# C170: the text of a frame tells which frame it is
-/

namespace Dronecan
namespace FrameText
open Can

/-- A frame that can be on a bus: an identifier of 29 or 11 bits, and no more data than the kind of frame holds. -/
structure OnBus (f : CANFrame) : Prop where
  pos : 0 ≤ f.canId
  id : f.canId < if f.extended then 2 ^ 29 else 2 ^ 11
  data : f.data.length ≤ if f.canfd then 64 else 8

/-- Lower-case hexadecimal digit. -/
def IsDigit (c : Char) : Prop := c ∈ "0123456789abcdef".toList

/-- The number a digit stands for. -/
def value (c : Char) : Nat := if c.toNat < 58 then c.toNat - 48 else c.toNat - 87

theorem digit_spec : ∀ k : Nat, k < 16 → IsDigit (digit k) ∧ value (digit k) = k := by
  have : ∀ k : Fin 16, digit k ∈ "0123456789abcdef".toList ∧ value (digit k) = k := by decide +kernel
  intro k hk; exact this ⟨k, hk⟩

theorem digit_plain (c : Char) (h : IsDigit c) : c ≠ ' ' ∧ 32 ≤ c.toNat ∧ c.toNat ≤ 126 := by
  have : ∀ c ∈ "0123456789abcdef".toList, c ≠ ' ' ∧ 32 ≤ c.toNat ∧ c.toNat ≤ 126 := by decide +kernel
  exact this c h

/-- The number digits stand for. -/
def number (l : List Char) : Nat := l.foldl (fun a c => 16 * a + value c) 0

theorem number_snoc (l : List Char) (c : Char) : number (l ++ [c]) = 16 * number l + value c := by simp [number]

theorem digits_spec (n : Nat) : (∀ c ∈ digits n, IsDigit c) ∧ number (digits n) = n := by
  induction n using Nat.strongRecOn with
  | _ n ih =>
    rw [digits]
    split
    · subst n; simp [number]
    · have h := ih (n / 16) (by omega)
      have d := digit_spec (n % 16) (by omega)
      refine ⟨?_, by rw [number_snoc, h.2, d.2]; omega⟩
      intro c hc
      rcases List.mem_append.1 hc with hc | hc
      · exact h.1 c hc
      · rw [List.mem_singleton.1 hc]; exact d.1

theorem hexPad_spec (w : Nat) : ∀ n, (∀ c ∈ hexPad w n, IsDigit c) ∧ number (hexPad w n) = n := by
  induction w with
  | zero => exact digits_spec
  | succ w ih =>
    intro n
    have h := ih (n / 16)
    have d := digit_spec (n % 16) (by omega)
    rw [hexPad]
    refine ⟨?_, by rw [number_snoc, h.2, d.2]; omega⟩
    intro c hc
    rcases List.mem_append.1 hc with hc | hc
    · exact h.1 c hc
    · rw [List.mem_singleton.1 hc]; exact d.1

theorem hexPad_length (w : Nat) : ∀ n, n < 16 ^ w → (hexPad w n).length = w := by
  induction w with
  | zero => intro n h; have : n = 0 := by simpa using h
            subst this; simp [hexPad, digits]
  | succ w ih => intro n h; simp [hexPad, ih (n / 16) (by rw [Nat.pow_succ] at h; omega)]

theorem hexPad_inj {w n m : Nat} (h : hexPad w n = hexPad w m) : n = m := by
  rw [← (hexPad_spec w n).2, ← (hexPad_spec w m).2, h]

theorem byte_pair (b : Byte) : ∃ x y, hexPad 2 b.toNat = [x, y] ∧ IsDigit x ∧ IsDigit y := by
  have hl := hexPad_length 2 b.toNat (by have := b.isLt; omega)
  have hs := (hexPad_spec 2 b.toNat).1
  match h : hexPad 2 b.toNat, hl with
  | [x, y], _ => rw [h] at hs; exact ⟨x, y, rfl, hs x (by simp), hs y (by simp)⟩

/-- The bytes, each after a space. -/
def spaced (l : List Byte) : List Char := l.flatMap fun b => ' ' :: hexPad 2 b.toNat

theorem spaced_join (l : List Byte) (h : l ≠ []) : ' ' :: join (l.map fun b => hexPad 2 b.toNat) = spaced l := by
  induction l with
  | nil => exact absurd rfl h
  | cons a l ih =>
    cases l with
    | nil => simp [join, spaced]
    | cons b l =>
      have := ih (by simp)
      simp only [List.map_cons, join] at this ⊢
      rw [this]; simp [spaced]

theorem spaced_inj (a : List Byte) : ∀ (b : List Byte) (m n : Nat),
    spaced a ++ List.replicate m ' ' = spaced b ++ List.replicate n ' ' → a = b := by
  have key : ∀ (y : Byte) (r : List Char) (m : Nat), List.replicate m ' ' = ' ' :: hexPad 2 y.toNat ++ r → False := by
    intro y r m h
    obtain ⟨p, q, hp, hd, -⟩ := byte_pair y
    have : p ∈ List.replicate m ' ' := by rw [h, hp]; simp
    exact (digit_plain p hd).1 (List.eq_of_mem_replicate this)
  induction a with
  | nil =>
    intro b m n h
    cases b with
    | nil => rfl
    | cons y b => exact (key y (spaced b ++ List.replicate n ' ') m (by simpa [spaced] using h)).elim
  | cons x a ih =>
    intro b m n h
    cases b with
    | nil => exact (key x (spaced a ++ List.replicate m ' ') n (by simpa [spaced] using h.symm)).elim
    | cons y b =>
      have hl : (hexPad 2 x.toNat).length = (hexPad 2 y.toNat).length := by
        rw [hexPad_length 2 _ (by have := x.isLt; omega), hexPad_length 2 _ (by have := y.isLt; omega)]
      have h' : hexPad 2 x.toNat ++ (spaced a ++ List.replicate m ' ') = hexPad 2 y.toNat ++ (spaced b ++ List.replicate n ' ') := by
        simpa [spaced] using h
      obtain ⟨h1, h2⟩ := List.append_inj h' hl
      rw [BitVec.eq_of_toNat_eq (hexPad_inj h1), ih b m n h2]

theorem join_length (l : List Byte) : (join (l.map fun b => hexPad 2 b.toNat)).length = 3 * l.length - 1 := by
  cases l with
  | nil => rfl
  | cons a l =>
    have hs : ∀ l : List Byte, (spaced l).length = 3 * l.length := by
      intro l
      induction l with
      | nil => rfl
      | cons a l ih =>
        have : spaced (a :: l) = ' ' :: hexPad 2 a.toNat ++ spaced l := by simp [spaced]
        rw [this, List.length_append, List.length_cons, hexPad_length 2 _ (by have := a.isLt; omega), ih, List.length_cons]; omega
    have := congrArg List.length (spaced_join (a :: l) (by simp))
    rw [hs, List.length_cons] at this
    omega

theorem hexData_length (f : CANFrame) (h : f.data.length ≤ maxLen f) : (hexData f).length = 3 * maxLen f := by
  simp only [hexData, ljust, List.length_append, List.length_replicate, join_length]; omega

theorem hexData_inj (f g : CANFrame) (h : hexData f = hexData g) : f.data = g.data := by
  simp only [hexData, ljust] at h
  by_cases hf : f.data = []
  · by_cases hg : g.data = []
    · rw [hf, hg]
    · have h' := congrArg (' ' :: ·) h
      simp only [← List.cons_append, spaced_join _ hg] at h'
      rw [hf] at h' ⊢
      have := spaced_inj [] g.data (3 * maxLen f + 1) _ (by simpa [spaced, join, List.replicate_succ] using h')
      exact this
  · by_cases hg : g.data = []
    · have h' := congrArg (' ' :: ·) h.symm
      simp only [← List.cons_append, spaced_join _ hf] at h'
      rw [hg] at h' ⊢
      have := spaced_inj [] f.data (3 * maxLen g + 1) _ (by simpa [spaced, join, List.replicate_succ] using h')
      exact this.symm
    · have h' := congrArg (' ' :: ·) h
      simp only [← List.cons_append, spaced_join _ hg, spaced_join _ hf] at h'
      exact spaced_inj _ _ _ _ h'

/-- What the column of the identifier is, by the kind of frame. -/
theorem idStr_eq (f : CANFrame) (h : OnBus f) : idStr f =
    (match f.canfd, f.extended with
      | true, true => "FD ".toList
      | false, true => "   ".toList
      | true, false => "     FD ".toList
      | false, false => "        ".toList) ++ hexPad (if f.extended then 8 else 3) f.canId.natAbs := by
  obtain ⟨i, d, e, c⟩ := f
  have hp := h.pos; have hi := h.id
  simp only at hp hi
  have hn : ¬ i < 0 := by omega
  cases e <;> cases c <;> simp only [idStr, rjust, hexInt, hn] <;> simp at hi ⊢
  · rw [hexPad_length 3 i.natAbs (by omega)]; rfl
  · rw [hexPad_length 3 i.natAbs (by omega)]; rfl
  · rw [hexPad_length 8 i.natAbs (by omega)]; rfl
  · rw [hexPad_length 8 i.natAbs (by omega)]

theorem idStr_length (f : CANFrame) (h : OnBus f) : (idStr f).length = 11 := by
  rw [idStr_eq f h]
  obtain ⟨i, d, e, c⟩ := f
  have hp := h.pos; have hi := h.id
  cases e <;> cases c <;> simp at hi hp ⊢
  · rw [hexPad_length 3 i.natAbs (by omega)]
  · rw [hexPad_length 3 i.natAbs (by omega)]
  · rw [hexPad_length 8 i.natAbs (by omega)]
  · rw [hexPad_length 8 i.natAbs (by omega)]

theorem eight (i : Int) (hp : 0 ≤ i) (hi : i < 2 ^ 29) : ∃ a b c d e p q r, hexPad 8 i.natAbs = [a, b, c, d, e, p, q, r] ∧
    IsDigit a ∧ IsDigit e := by
  have hl := hexPad_length 8 i.natAbs (by omega)
  have hs := (hexPad_spec 8 i.natAbs).1
  match h : hexPad 8 i.natAbs, hl with
  | [a, b, c, d, e, p, q, r], _ =>
    rw [h] at hs; exact ⟨a, b, c, d, e, p, q, r, rfl, hs a (by simp), hs e (by simp)⟩

theorem idStr_extended (f : CANFrame) (h : OnBus f) : (idStr f)[7]? = some ' ' ↔ f.extended = false := by
  rw [idStr_eq f h]
  obtain ⟨i, d, e, c⟩ := f
  have hp := h.pos; have hi := h.id
  cases e
  · cases c <;> simp
  · simp only [if_true] at hi hp ⊢
    obtain ⟨a, b, c', d, e, p, q, r, hx, ha, he⟩ := eight i hp hi
    have := (digit_plain e he).1
    rw [hx]
    cases c <;> simp [this]

theorem idStr_canfd (f : CANFrame) (h : OnBus f) :
    (idStr f)[if f.extended then 0 else 5]? = some 'F' ↔ f.canfd = true := by
  rw [idStr_eq f h]
  obtain ⟨i, d, e, c⟩ := f
  cases e <;> cases c <;> simp

theorem idStr_inj (f g : CANFrame) (hf : OnBus f) (hg : OnBus g) (h : idStr f = idStr g) :
    f.canId = g.canId ∧ f.extended = g.extended ∧ f.canfd = g.canfd := by
  have he : f.extended = g.extended := by
    have h1 := idStr_extended f hf
    have h2 := idStr_extended g hg
    rw [h] at h1
    cases hx : f.extended <;> cases hy : g.extended <;> simp_all
  have hc : f.canfd = g.canfd := by
    have h1 := idStr_canfd f hf
    have h2 := idStr_canfd g hg
    rw [h, he] at h1
    have := h1.symm.trans h2
    cases hx : f.canfd <;> cases hy : g.canfd <;> simp_all
  rw [idStr_eq f hf, idStr_eq g hg, he, hc] at h
  have hn := hexPad_inj (List.append_cancel_left h)
  have := hf.pos; have := hg.pos
  exact ⟨by omega, he, hc⟩

/-- Frames with the same text after the time stamps are the same frame. -/
theorem C170_injective (f g : CANFrame) (hf : OnBus f) (hg : OnBus g) (h : text f = text g) : f = g := by
  simp only [text, List.append_assoc] at h
  have h1 := List.append_inj (List.append_cancel_left h) (by rw [idStr_length f hf, idStr_length g hg])
  obtain ⟨hi, he, hc⟩ := idStr_inj f g hf hg h1.1
  have hm : maxLen f = maxLen g := by simp [maxLen, hc]
  have h2 := List.append_inj (List.append_cancel_left h1.2) (by
    rw [hexData_length f hf.data, hexData_length g hg.data, hm])
  have hd := hexData_inj f g h2.1
  cases f; cases g; simp_all

/-- The text of a frame has the same columns whatever the frame: the identifier ends after 13 characters, the bytes begin after 15,
and the characters begin after 42 for a classic frame, and after 210 for an FD frame. -/
theorem C170_columns (f : CANFrame) (h : OnBus f) : ∃ i x : List Char,
    text f = "  ".toList ++ i ++ "  ".toList ++ x ++ "  '".toList ++
      f.data.map (fun b => if 32 ≤ b.toNat ∧ b.toNat ≤ 126 then Char.ofNat b.toNat else '.') ++ ['\''] ∧
    i.length = 11 ∧ x.length = if f.canfd then 192 else 24 := by
  refine ⟨idStr f, hexData f, rfl, idStr_length f h, ?_⟩
  rw [hexData_length f h.data, maxLen]; split <;> rfl

/-- Byte `k` is written with two digits at column `3 k` of the bytes, whatever the others are. -/
theorem C170_byte (f : CANFrame) (h : OnBus f) (k : Nat) (b : Byte) (hk : f.data[k]? = some b) : ∃ x y,
    (text f)[15 + 3 * k]? = some x ∧ (text f)[16 + 3 * k]? = some y ∧ IsDigit x ∧ IsDigit y ∧ 16 * value x + value y = b.toNat := by
  have hne : f.data ≠ [] := by intro h0; simp [h0] at hk
  have sp : ∀ (l : List Byte) (k : Nat), l[k]? = some b → ∀ r : List Char, ∃ p q, spaced l ++ r = p ++ (' ' :: hexPad 2 b.toNat) ++ q ∧ p.length = 3 * k := by
    intro l
    induction l with
    | nil => intro k hk; simp at hk
    | cons a l ih =>
      intro k hk r
      have e : spaced (a :: l) = ' ' :: hexPad 2 a.toNat ++ spaced l := by simp [spaced]
      cases k with
      | zero => simp at hk; subst hk; exact ⟨[], spaced l ++ r, by rw [e]; simp, rfl⟩
      | succ k =>
        obtain ⟨p, q, h1, h2⟩ := ih k (by simpa using hk) r
        refine ⟨' ' :: hexPad 2 a.toNat ++ p, q, by rw [e, List.append_assoc, h1]; simp, ?_⟩
        rw [List.length_append, List.length_cons, hexPad_length 2 _ (by have := a.isLt; omega), h2]; omega
  obtain ⟨x, y, hx, dx, dy⟩ := byte_pair b
  have hv := (hexPad_spec 2 b.toNat).2
  rw [hx] at hv
  let tail := List.replicate (3 * maxLen f - (join (f.data.map fun b => hexPad 2 b.toNat)).length) ' ' ++ [' ', ' ', '\''] ++ asciiData f ++ ['\'']
  obtain ⟨p, q, h1, h2⟩ := sp f.data k hk tail
  have ht : text f = ([' ', ' '] ++ idStr f ++ [' ']) ++ (spaced f.data ++ tail) := by
    rw [← spaced_join _ hne]; simp [text, hexData, ljust, tail]
  rw [h1, hx] at ht
  have hl := idStr_length f h
  have hpl : (([' ', ' '] ++ idStr f ++ [' ']) ++ p).length = 14 + 3 * k := by simp [hl, h2]; omega
  have ht' : text f = (([' ', ' '] ++ idStr f ++ [' ']) ++ p) ++ (' ' :: x :: y :: q) := by rw [ht]; simp
  refine ⟨x, y, ?_, ?_, dx, dy, by simpa [number] using hv⟩
  · rw [ht', List.getElem?_append_right (by omega), hpl, show 15 + 3 * k - (14 + 3 * k) = 1 by omega]; rfl
  · rw [ht', List.getElem?_append_right (by omega), hpl, show 16 + 3 * k - (14 + 3 * k) = 2 by omega]; rfl

/-- The identifier is written before column 13, with eight digits if it is extended, and else with three. -/
theorem C170_id (f : CANFrame) (h : OnBus f) : ∃ l : List Char,
    l = ((text f).drop (if f.extended then 5 else 10)).take (if f.extended then 8 else 3) ∧ (∀ c ∈ l, IsDigit c) ∧
    l.length = (if f.extended then 8 else 3) ∧ (l.foldl (fun a c => 16 * a + value c) 0 : Nat) = f.canId := by
  have hp := h.pos; have hi := h.id
  let w := if f.extended then 8 else 3
  have hw : f.canId.natAbs < 16 ^ w := by
    simp only [w]; split at hi <;> rename_i he <;> simp only [he] <;> simp <;> omega
  have hl := hexPad_length w _ hw
  have hs := hexPad_spec w f.canId.natAbs
  refine ⟨hexPad w f.canId.natAbs, ?_, hs.1, hl, ?_⟩
  · have ht : ∃ p r, text f = p ++ (hexPad w f.canId.natAbs ++ r) ∧ p.length = if f.extended then 5 else 10 := by
      simp only [text, List.append_assoc]
      rw [idStr_eq f h, List.append_assoc, ← List.append_assoc]
      refine ⟨_, _, rfl, ?_⟩
      cases f.extended <;> cases f.canfd <;> simp
    obtain ⟨p, r, h1, h2⟩ := ht
    rw [h1, ← h2, List.drop_left]
    exact (List.take_left' hl).symm
  · have := hs.2
    rw [number] at this
    rw [this]; omega

/-- The text is one line of printable ASCII characters, whatever the data. -/
theorem C170_printable (f : CANFrame) (c : Char) (hc : c ∈ text f) : 32 ≤ c.toNat ∧ c.toNat ≤ 126 := by
  have hpad : ∀ w n, ∀ c ∈ hexPad w n, 32 ≤ c.toNat ∧ c.toNat ≤ 126 := fun w n c hc => (digit_plain c ((hexPad_spec w n).1 c hc)).2
  have hint : ∀ w i, ∀ c ∈ hexInt w i, 32 ≤ c.toNat ∧ c.toNat ≤ 126 := by
    intro w i c hc
    simp only [hexInt] at hc
    split at hc
    · rcases List.mem_cons.1 hc with rfl | hc
      · decide
      · exact hpad _ _ c hc
    · exact hpad _ _ c hc
  have hj : ∀ l : List Byte, ∀ c ∈ join (l.map fun b => hexPad 2 b.toNat), 32 ≤ c.toNat ∧ c.toNat ≤ 126 := by
    intro l c hc
    have : ∀ c ∈ spaced l, 32 ≤ c.toNat ∧ c.toNat ≤ 126 := by
      intro c hc
      obtain ⟨b, -, hb⟩ := List.mem_flatMap.1 hc
      rcases List.mem_cons.1 hb with rfl | hb
      · decide
      · exact hpad _ _ c hb
    by_cases hl : l = []
    · subst hl; simp [join] at hc
    · exact this c (by rw [← spaced_join l hl]; exact List.mem_cons_of_mem _ hc)
  have hsp : ∀ n, ∀ c ∈ List.replicate n ' ', 32 ≤ c.toNat ∧ c.toNat ≤ 126 := by
    intro n c hc; rw [List.eq_of_mem_replicate hc]; decide
  have hasc : ∀ b : Byte, 32 ≤ (if 32 ≤ b.toNat ∧ b.toNat ≤ 126 then Char.ofNat b.toNat else '.').toNat ∧
      (if 32 ≤ b.toNat ∧ b.toNat ≤ 126 then Char.ofNat b.toNat else '.').toNat ≤ 126 := by decide +kernel
  simp only [text, idStr, hexData, asciiData, rjust, ljust, List.mem_append, or_assoc] at hc
  rcases hc with hc | hc | hc | hc | hc | hc | hc | hc | hc | hc
  · revert c; decide
  · exact hsp _ c hc
  · split at hc
    · revert c; decide
    · simp at hc
  · rcases List.mem_cons.1 hc with rfl | hc
    · decide
    · exact hint _ _ c hc
  · revert c; decide
  · exact hj _ c hc
  · exact hsp _ c hc
  · revert c; decide
  · obtain ⟨b, -, rfl⟩ := List.mem_map.1 hc; exact hasc b
  · revert c; decide

example : OnBus ⟨0x1fffff7f, [0x41, 0x27, 0x00], true, false⟩ := ⟨by decide, by decide, by decide⟩

example : String.ofList (text ⟨0x1fffff7f, [0x41, 0x27, 0x00], true, false⟩) =
    "     1fffff7f  41 27 00                  'A'.'" := by decide +kernel

example : (text ⟨0x7f, [0x41, 0x27, 0x00], false, true⟩).take 25 = "       FD 07f  41 27 00  ".toList := by decide +kernel

/-- The text of a frame tells which frame it is, whatever its identifier. -/
def C170_statement : Prop := ∀ f g : CANFrame, 0 ≤ f.canId → 0 ≤ g.canId → f.data.length ≤ 8 → g.data.length ≤ 8 → text f = text g → f = g

/-- An identifier too long for the standard format, which the constructor accepts, is written as an extended one. -/
theorem C170_counterexample : ¬ C170_statement := by
  intro h
  have := h ⟨0x12345678, [], false, false⟩ ⟨0x12345678, [], true, false⟩ (by decide) (by decide) (by decide) (by decide) (by decide +kernel)
  exact absurd this (by decide)

end FrameText
end Dronecan
