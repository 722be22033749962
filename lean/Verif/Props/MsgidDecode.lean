import Verif.Model.MsgidDecode
import Verif.Props.ArraySize
import Verif.Props.Transfer

/-!
# C140: the tool that explains CAN identifiers
-/

namespace Dronecan
namespace MsgidDecode
open Text Parser

/-! ## Specification -/

/-- What is to be said about a transfer. -/
def report (h : Header) : List Str :=
  [lit "source id: " ++ decimal h.source, lit "priority: " ++ decimal h.prio] ++
  if h.service then
    [lit "dest id: " ++ decimal (h.dest.getD 0), (if h.request then lit "srv(req) type: " else lit "srv(rsp) type: ") ++ decimal h.dtid]
  else [lit "msg type: " ++ decimal h.dtid]

/-- The ways to write a number in hexadecimal: with or without `0x`. -/
inductive Written : Str → Nat → Prop where
  | bare (s : Str) (n : Nat) : Digits 16 s n → Written s n
  | hex (x : Char) (s : Str) (n : Nat) : (x = 'x' ∨ x = 'X') → Digits 16 s n → Written ('0' :: x :: s) n

/-- C140 in full: given the identifier of the frames of a transfer in hexadecimal, the tool says what is true of it. -/
def C140_statement : Prop := ∀ (h : Header) (s : Str) (id : Nat), ValidHeader h → encodeId h = .ok id → Written s id → main s = some (report h)

/-! ## Numbers -/

theorem digitVal_plain (c : Char) (d : Nat) (h : digitVal c = some d) : isSpace c = false ∧ c ≠ '-' ∧ c ≠ '+' := by
  have hd : digitVal '-' = none := by decide
  have hp : digitVal '+' = none := by decide
  refine ⟨?_, (by rintro rfl; rw [hd] at h; cases h), (by rintro rfl; rw [hp] at h; cases h)⟩
  have hc : 48 ≤ c.toNat ∧ c.toNat ≤ 122 := by
    unfold digitVal at h
    split at h
    · rename_i hc; exact ⟨hc.1, Nat.le_trans hc.2 (by decide)⟩
    · split at h
      · rename_i hc; exact ⟨Nat.le_trans (by decide) hc.1, hc.2⟩
      · split at h
        · rename_i hc; exact ⟨Nat.le_trans (by decide) hc.1, Nat.le_trans hc.2 (by decide)⟩
        · cases h
  simp only [isSpace, Bool.or_eq_false_iff, Bool.and_eq_false_iff, decide_eq_false_iff_not, beq_eq_false_iff_ne]
  omega

theorem digits_chars (base : Nat) (s : Str) (n : Nat) (h : Digits base s n) : ∀ c ∈ s, c = '_' ∨ ∃ d, digitVal c = some d ∧ d < base := by
  induction h with
  | one c d h1 h2 =>
    intro x hx
    rw [List.mem_singleton.1 hx]
    exact .inr ⟨d, h1, h2⟩
  | more s n c d _ h1 h2 ih =>
    intro x hx
    rcases List.mem_append.1 hx with hx | hx
    · exact ih x hx
    · rw [List.mem_singleton.1 hx]; exact .inr ⟨d, h1, h2⟩
  | underscore s n c d _ h1 h2 ih =>
    intro x hx
    rcases List.mem_append.1 hx with hx | hx
    · exact ih x hx
    · simp only [List.mem_cons, List.not_mem_nil, or_false] at hx
      rcases hx with rfl | rfl
      · exact .inl rfl
      · exact .inr ⟨d, h1, h2⟩

theorem digits_no_space (base : Nat) (s : Str) (n : Nat) (h : Digits base s n) : ∀ c ∈ s, isSpace c = false := by
  intro c hc
  rcases digits_chars base s n h c hc with rfl | ⟨d, hd, -⟩
  · decide
  · exact (digitVal_plain c d hd).1

theorem signed_plain (f : Str → Option Nat) (s : Str) (h1 : s.head? ≠ some '-') (h2 : s.head? ≠ some '+') :
    signed f s = (f s).map fun (n : Nat) => (n : Int) := by
  unfold signed
  split
  · simp at h1
  · simp at h2
  · rfl

theorem digits_signed (base : Nat) (f : Str → Option Nat) (s : Str) (n : Nat) (h : Digits base s n) :
    signed f (strip s) = (f s).map fun (n : Nat) => (n : Int) := by
  rw [strip_of_no_space s (digits_no_space base s n h)]
  obtain ⟨c, cs, d, rfl, hd, -⟩ := digits_head base s n h
  exact signed_plain f _ (by simpa using (digitVal_plain c d hd).2.1) (by simpa using (digitVal_plain c d hd).2.2)

/-- A number in decimal is read as such. -/
theorem C140_decimal (s : Str) (n : Nat) (h : Digits 10 s n) : num s = some (n : Int) := by
  simp [num, int10, digits_signed 10 _ s n h, digits_complete 10 s n h]

theorem unsigned16_digits (s : Str) (n : Nat) (h : Digits 16 s n) : unsigned16 s = some n := by
  unfold unsigned16
  split
  · rename_i x cs
    split
    · rename_i hx
      rcases digits_chars 16 _ n h x (by simp) with rfl | ⟨d, h1, h2⟩
      · exact absurd hx (by decide)
      · have e1 : digitVal 'x' = some 33 := by decide
        have e2 : digitVal 'X' = some 33 := by decide
        rcases hx with rfl | rfl
        · rw [e1] at h1; cases h1; omega
        · rw [e2] at h1; cases h1; omega
    · exact digits_complete 16 _ n h
  · exact digits_complete 16 _ n h

/-- A number in hexadecimal is read as such if it has the prefix. -/
theorem C140_hex (x : Char) (hx : x = 'x' ∨ x = 'X') (s : Str) (n : Nat) (h : Digits 16 s n) : num ('0' :: x :: s) = some (n : Int) := by
  have hs : strip ('0' :: x :: s) = '0' :: x :: s := by
    apply strip_of_no_space
    intro c hc
    simp only [List.mem_cons] at hc
    rcases hc with rfl | rfl | hc
    · decide
    · rcases hx with rfl | rfl <;> decide
    · exact digits_no_space 16 s n h c hc
  have h10 : int10 ('0' :: x :: s) = none := by
    unfold int10
    rw [hs, signed_plain _ _ (by simp) (by simp)]
    have : digits 10 ('0' :: x :: s) = none := by
      have e0 : digit 10 '0' = some 0 := by decide
      simp only [digits, e0]
      rcases hx with rfl | rfl
      · have e1 : digit 10 'x' = none := by decide
        simp [digitsTail, e1]
      · have e1 : digit 10 'X' = none := by decide
        simp [digitsTail, e1]
    rw [this]; rfl
  have h16 : unsigned16 ('0' :: x :: s) = some n := by
    simp only [unsigned16, if_pos hx]
    have : skipUnderscore s = s := by
      obtain ⟨c, cs, d, rfl, hd, -⟩ := digits_head 16 s n h
      unfold skipUnderscore
      split
      · rename_i cs' e
        simp only [List.cons.injEq] at e
        rw [e.1, digitVal_underscore] at hd
        cases hd
      · rfl
    rw [this, digits_complete 16 s n h]
  rw [num, h10]
  simp only [int16, hs]
  rw [signed_plain _ _ (by simp) (by simp), h16]
  rfl

/-- Without the prefix, it is if it contains one of the letters. -/
theorem C140_bare (s : Str) (n : Nat) (h : Digits 16 s n) (hl : ∃ c ∈ s, ∃ d, digitVal c = some d ∧ 10 ≤ d) : num s = some (n : Int) := by
  have h10 : int10 s = none := by
    rw [int10, digits_signed 16 _ s n h]
    cases hd : digits 10 s with
    | none => rfl
    | some m =>
      obtain ⟨c, hc, d, h1, h2⟩ := hl
      rcases digits_chars 10 s m (digits_sound 10 s m hd) c hc with rfl | ⟨d', h3, h4⟩
      · rw [digitVal_underscore] at h1; cases h1
      · rw [h1] at h3; cases h3; omega
  rw [num, h10]
  simp [int16, digits_signed 16 _ s n h, unsigned16_digits s n h]

/-! ## What is printed -/

theorem explain_header (h : Header) (hv : ValidHeader h) (hs : h.service = true ∨ h.source ≠ 0) : explain (idLayout h : Nat) = report h := by
  have key : ∀ k w : Nat, bitsOf (idLayout h : Nat) k w = idLayout h / 2 ^ k % 2 ^ w := by
    intro k w
    simp only [bitsOf]
    have : ((idLayout h : Nat) : Int) / 2 ^ k % 2 ^ w = ((idLayout h / 2 ^ k % 2 ^ w : Nat) : Int) := by simp
    rw [this, Int.toNat_natCast]
  unfold explain report
  simp only [key]
  cases hv with
  | service prio dtid source dest request hp hd hs hd1 hd2 =>
    have hr : request.toNat < 2 := Bool.toNat_lt request
    simp only [idLayout, if_true, Option.getD_some, Bool.toNat_true]
    have e1 : (prio * 2 ^ 24 + 1 * 2 ^ 7 + source + (dtid * 2 ^ 16 + request.toNat * 2 ^ 15 + dest * 2 ^ 8)) / 2 ^ 0 % 2 ^ 7 = source := by omega
    have e2 : (prio * 2 ^ 24 + 1 * 2 ^ 7 + source + (dtid * 2 ^ 16 + request.toNat * 2 ^ 15 + dest * 2 ^ 8)) / 2 ^ 24 % 2 ^ 5 = prio := by omega
    have e3 : (prio * 2 ^ 24 + 1 * 2 ^ 7 + source + (dtid * 2 ^ 16 + request.toNat * 2 ^ 15 + dest * 2 ^ 8)) / 2 ^ 7 % 2 ^ 1 = 1 := by omega
    have e4 : (prio * 2 ^ 24 + 1 * 2 ^ 7 + source + (dtid * 2 ^ 16 + request.toNat * 2 ^ 15 + dest * 2 ^ 8)) / 2 ^ 8 % 2 ^ 7 = dest := by omega
    have e5 : (prio * 2 ^ 24 + 1 * 2 ^ 7 + source + (dtid * 2 ^ 16 + request.toNat * 2 ^ 15 + dest * 2 ^ 8)) / 2 ^ 15 % 2 ^ 1 = request.toNat := by omega
    have e6 : (prio * 2 ^ 24 + 1 * 2 ^ 7 + source + (dtid * 2 ^ 16 + request.toNat * 2 ^ 15 + dest * 2 ^ 8)) / 2 ^ 16 % 2 ^ 8 = dtid := by omega
    rw [e1, e2, e3, e4, e5, e6]
    cases request <;> simp
  | message prio dtid source hp hd hs1 hs2 =>
    have hs0 : source ≠ 0 := by omega
    simp only [idLayout, Bool.toNat_false, if_neg hs0]
    simp only [Bool.false_eq_true, if_false]
    have e1 : (prio * 2 ^ 24 + 0 * 2 ^ 7 + source + dtid * 2 ^ 8) / 2 ^ 0 % 2 ^ 7 = source := by omega
    have e2 : (prio * 2 ^ 24 + 0 * 2 ^ 7 + source + dtid * 2 ^ 8) / 2 ^ 24 % 2 ^ 5 = prio := by omega
    have e3 : (prio * 2 ^ 24 + 0 * 2 ^ 7 + source + dtid * 2 ^ 8) / 2 ^ 7 % 2 ^ 1 = 0 := by omega
    have e4 : (prio * 2 ^ 24 + 0 * 2 ^ 7 + source + dtid * 2 ^ 8) / 2 ^ 8 % 2 ^ 16 = dtid := by omega
    rw [e1, e2, e3, e4]
    simp
  | anonymous prio dtid discriminator hp hd hdisc => simp at hs

/-- C140 for transfers that are not anonymous, if the number has the prefix `0x` or contains a letter. (Missing: numbers in hexadecimal that look like decimal
ones, `C140_counterexample`, and anonymous messages, `C140_anonymous_counterexample`.) -/
theorem C140_partial (h : Header) (s : Str) (id : Nat) (hv : ValidHeader h) (hs : h.service = true ∨ h.source ≠ 0) (hid : encodeId h = .ok id)
    (hw : Written s id) (hl : (∃ x t, s = '0' :: x :: t ∧ (x = 'x' ∨ x = 'X')) ∨ ∃ c ∈ s, ∃ d, digitVal c = some d ∧ 10 ≤ d ∧ d < 16) :
    main s = some (report h) := by
  have e : idLayout h = id := by
    have := (C12_header_roundtrip h hv).1
    rw [hid] at this
    cases this; rfl
  subst e
  have hn : num s = some (idLayout h : Nat) := by
    cases hw with
    | hex x t _ hx hd => exact C140_hex x hx t _ hd
    | bare _ _ hd =>
      rcases hl with ⟨x, t, rfl, hx⟩ | ⟨c, hc, d, h1, h2, h3⟩
      · exfalso
        rcases digits_chars 16 _ _ hd x (by simp) with rfl | ⟨d, h1, h2⟩
        · exact absurd hx (by decide)
        · have e1 : digitVal 'x' = some 33 := by decide
          have e2 : digitVal 'X' = some 33 := by decide
          rcases hx with rfl | rfl
          · rw [e1] at h1; cases h1; omega
          · rw [e2] at h1; cases h1; omega
      · exact C140_bare s _ hd ⟨c, hc, d, h1, h2⟩
  rw [main, hn]
  exact congrArg some (explain_header h hv hs)

/-- What is said of an anonymous message: source and priority are true, the number of the type has the discriminator in it. -/
theorem C140_anonymous (prio dtid disc : Nat) (hp : prio < 32) (hd : dtid < 4) (hdisc : disc < 2 ^ 14) :
    explain (idLayout { prio, dtid, discriminator := some disc } : Nat) =
      [lit "source id: 0", lit "priority: " ++ decimal prio, lit "msg type: " ++ decimal (disc * 4 + dtid)] := by
  have key : ∀ x k w : Nat, bitsOf (x : Nat) k w = x / 2 ^ k % 2 ^ w := by
    intro x k w
    simp only [bitsOf]
    have : ((x : Nat) : Int) / 2 ^ k % 2 ^ w = ((x / 2 ^ k % 2 ^ w : Nat) : Int) := by simp
    rw [this, Int.toNat_natCast]
  unfold explain
  simp only [key, idLayout, Bool.toNat_false, Option.getD_some]
  simp only [Bool.false_eq_true, if_false, if_true]
  have e1 : (prio * 2 ^ 24 + 0 * 2 ^ 7 + 0 + (disc * 2 ^ 10 + dtid * 2 ^ 8)) / 2 ^ 0 % 2 ^ 7 = 0 := by omega
  have e2 : (prio * 2 ^ 24 + 0 * 2 ^ 7 + 0 + (disc * 2 ^ 10 + dtid * 2 ^ 8)) / 2 ^ 24 % 2 ^ 5 = prio := by omega
  have e3 : (prio * 2 ^ 24 + 0 * 2 ^ 7 + 0 + (disc * 2 ^ 10 + dtid * 2 ^ 8)) / 2 ^ 7 % 2 ^ 1 = 0 := by omega
  have e4 : (prio * 2 ^ 24 + 0 * 2 ^ 7 + 0 + (disc * 2 ^ 10 + dtid * 2 ^ 8)) / 2 ^ 8 % 2 ^ 16 = disc * 4 + dtid := by omega
  rw [e1, e2, e3, e4]
  simp
  decide

/-- An argument that is a number in neither way is refused. -/
theorem C140_refused (s : Str) (h : main s = none) : ∀ n : Nat, ¬ Digits 10 s n ∧ ¬ Written s n := by
  intro n
  refine ⟨fun hd => ?_, fun hw => ?_⟩
  · rw [main, C140_decimal s n hd] at h
    cases h
  · cases hw with
    | hex x t _ hx hd =>
      rw [main, C140_hex x hx t n hd] at h
      cases h
    | bare _ _ hd =>
      unfold main num at h
      cases h10 : int10 s with
      | some m => rw [h10] at h; cases h
      | none =>
        rw [h10] at h
        simp [int16, digits_signed 16 _ s n hd, unsigned16_digits s n hd] at h

/-! ## The statement is false -/

/-- The identifier 10015501 in hexadecimal, NodeStatus of node 1, is taken for a decimal number. -/
theorem C140_counterexample : ¬ C140_statement := by
  intro h
  have := h { prio := 16, source := 1, dtid := 341 } (lit "10015501") 0x10015501 (.message 16 341 1 (by omega) (by omega) (by omega) (by omega))
    (by decide +kernel) (.bare _ _ (digits_sound 16 _ _ (by decide +kernel)))
  revert this
  decide +kernel

/-- The discriminator of an anonymous message is taken for a part of the number of the type. -/
theorem C140_anonymous_counterexample : ∃ (h : Header) (s : Str) (id : Nat), ValidHeader h ∧ encodeId h = .ok id ∧ Written s id ∧
    main s ≠ some (report h) ∧ s.head? = some '0' :=
  ⟨{ prio := 16, dtid := 1, discriminator := some 5 }, lit "0x10001500", 0x10001500, .anonymous 16 1 5 (by omega) (by omega) (by omega),
    by decide +kernel, .hex 'x' (lit "10001500") _ (.inl rfl) (digits_sound 16 _ _ (by decide +kernel)), by decide +kernel, by decide +kernel⟩

/-! ## Examples -/

example : main (lit "0x10015501") = some [lit "source id: 1", lit "priority: 16", lit "msg type: 341"] := by decide +kernel
example : main (lit "1E0a9fAA") = some [lit "source id: 42", lit "priority: 30", lit "dest id: 31", lit "srv(req) type: 10"] := by decide +kernel
example : main (lit "zz") = none := by decide +kernel

end MsgidDecode
end Dronecan
