import Verif.Model.Utf8

/-!
# UTF-8: the codec is the relation of RFC 3629
-/

namespace Dronecan
namespace Utf8

/-- The bytes of a code point (RFC 3629, section 3), by arithmetic. -/
inductive Seq : Nat → List Nat → Prop
  | one (c : Nat) : c < 0x80 → Seq c [c]
  | two (c : Nat) : 0x80 ≤ c → c < 0x800 → Seq c [0xC0 + c / 64, 0x80 + c % 64]
  | three (c : Nat) : 0x800 ≤ c → c < 0x10000 → ¬ (0xD800 ≤ c ∧ c < 0xE000) →
      Seq c [0xE0 + c / 4096, 0x80 + c / 64 % 64, 0x80 + c % 64]
  | four (c : Nat) : 0x10000 ≤ c → c < 0x110000 →
      Seq c [0xF0 + c / 262144, 0x80 + c / 4096 % 64, 0x80 + c / 64 % 64, 0x80 + c % 64]

/-- The bytes of a text. -/
inductive Says : List Nat → List Nat → Prop
  | nil : Says [] []
  | cons {c a cs b} : Seq c a → Says cs b → Says (c :: cs) (a ++ b)

theorem and_ff (x n : Nat) (m : Nat) (h : m = 2 ^ n - 1) : x &&& m = x % 2 ^ n := by
  rw [h]; exact Nat.and_two_pow_sub_one_eq_mod x n

theorem or_add (a b i m : Nat) (h : m = a <<< i) (hb : b < 2 ^ i) : m ||| b = m + b := by
  rw [h]; exact (Nat.shiftLeft_add_eq_or_of_lt hb a).symm

theorem or2 (a b : Nat) (hb : b < 64) : a <<< 6 ||| b = a * 64 + b := by
  rw [or_add a b 6 _ rfl hb, Nat.shiftLeft_eq]

theorem or3 (a b c : Nat) (hb : b < 64) (hc : c < 64) : a <<< 12 ||| b <<< 6 ||| c = (a * 64 + b) * 64 + c := by
  have e1 : b <<< 6 < 2 ^ 12 := by rw [Nat.shiftLeft_eq]; omega
  have e : a <<< 12 ||| b <<< 6 = (a * 64 + b) <<< 6 := by
    rw [or_add a (b <<< 6) 12 _ rfl e1]; simp only [Nat.shiftLeft_eq]; omega
  rw [e, or2 _ _ hc]

theorem or4 (a b c d : Nat) (hb : b < 64) (hc : c < 64) (hd : d < 64) :
    a <<< 18 ||| b <<< 12 ||| c <<< 6 ||| d = ((a * 64 + b) * 64 + c) * 64 + d := by
  have e1 : b <<< 12 < 2 ^ 18 := by rw [Nat.shiftLeft_eq]; omega
  have e : a <<< 18 ||| b <<< 12 = (a * 64 + b) <<< 12 := by
    rw [or_add a (b <<< 12) 18 _ rfl e1]; simp only [Nat.shiftLeft_eq]; omega
  rw [e, or3 _ _ _ hc hd]

theorem encodeChar_spec (c : Nat) (hc : c < 0x110000) (a : List Nat) : encodeChar c = some a ↔ Seq c a := by
  have m6 (x : Nat) : x &&& 0x3F = x % 64 := and_ff x 6 _ rfl
  have o6 (x : Nat) : 0x80 ||| (x % 64) = 0x80 + x % 64 := or_add 2 _ 6 _ rfl (by omega)
  unfold encodeChar
  simp only [m6, o6, Nat.shiftRight_eq_div_pow]
  by_cases h1 : c < 0x80
  · rw [if_pos h1]
    constructor
    · intro h; injection h with h; subst h; exact .one c h1
    · intro h
      cases h with
      | one => rfl
      | two | three | four => omega
  rw [if_neg h1]
  by_cases h2 : c < 0x800
  · rw [if_pos h2]
    have e : 0xC0 ||| c / 2 ^ 6 = 0xC0 + c / 64 := or_add 6 _ 5 _ rfl (by omega)
    rw [e]
    constructor
    · intro h; injection h with h; subst h; exact .two c (by omega) h2
    · intro h
      cases h with
      | two => rfl
      | one | three | four => omega
  rw [if_neg h2]
  by_cases h3 : 0xD800 ≤ c ∧ c ≤ 0xDFFF
  · rw [if_pos h3]
    constructor
    · intro h; cases h
    · intro h; cases h <;> omega
  rw [if_neg h3]
  by_cases h4 : c < 0x10000
  · rw [if_pos h4]
    have e : 0xE0 ||| c / 2 ^ 12 = 0xE0 + c / 4096 := or_add 14 _ 4 _ rfl (by omega)
    rw [e]
    constructor
    · intro h; injection h with h; subst h; exact .three c (by omega) h4 (by omega)
    · intro h
      cases h with
      | three => rfl
      | one | two | four => omega
  · rw [if_neg h4]
    have e : 0xF0 ||| c / 2 ^ 18 = 0xF0 + c / 262144 := or_add 30 _ 3 _ rfl (by omega)
    rw [e]
    constructor
    · intro h; injection h with h; subst h; exact .four c (by omega) hc
    · intro h
      cases h with
      | four => rfl
      | one | two | three => omega

theorem encode_spec (s : List Nat) (hs : ∀ c ∈ s, c < 0x110000) (b : List Nat) : encode s = some b ↔ Says s b := by
  induction s generalizing b with
  | nil =>
    constructor
    · intro h; injection h with h; subst h; exact .nil
    · intro h; cases h; rfl
  | cons c cs ih =>
    have hc := encodeChar_spec c (hs c List.mem_cons_self)
    have ih := ih fun x hx => hs x (List.mem_cons_of_mem _ hx)
    simp only [encode]
    constructor
    · intro h
      split at h
      · rename_i a b' h1 h2
        injection h with h
        subst h
        exact .cons ((hc a).1 h1) ((ih b').1 h2)
      · cases h
    · intro h
      cases h with
      | cons h1 h2 => rw [(hc _).2 h1, (ih _).2 h2]

/-- Reading the bytes of a code point at the front. -/
theorem decode_seq (c : Nat) (a : List Nat) (h : Seq c a) (rest : List Nat) : decode (a ++ rest) = (decode rest).map (c :: ·) := by
  have m6 (x : Nat) : x &&& 0x3F = x % 64 := and_ff x 6 _ rfl
  have m5 (x : Nat) : x &&& 0x1F = x % 32 := and_ff x 5 _ rfl
  have m4 (x : Nat) : x &&& 0xF = x % 16 := and_ff x 4 _ rfl
  have m3 (x : Nat) : x &&& 7 = x % 8 := and_ff x 3 _ rfl
  cases h with
  | one h1 =>
    rw [List.cons_append, List.nil_append]
    conv => lhs; unfold decode
    rw [if_pos h1]
  | two h1 h2 =>
    have hcont : cont (0x80 + c % 64) = true := by simp [cont]; omega
    rw [List.cons_append, List.cons_append, List.nil_append, decode, if_neg (by omega), if_pos (by omega)]
    simp only [hcont, if_true, m6, m5]
    have e : ((0xC0 + c / 64) % 32) <<< 6 ||| (0x80 + c % 64) % 64 = c := by
      rw [or2 _ _ (by omega)]; omega
    rw [e]
  | three h1 h2 h3 =>
    have hc1 : second3 (0xE0 + c / 4096) (0x80 + c / 64 % 64) = true := by
      simp only [second3, cont, Bool.and_eq_true, Bool.or_eq_true, bne_iff_ne, decide_eq_true_eq, ne_eq]
      omega
    have hc2 : cont (0x80 + c % 64) = true := by simp [cont]; omega
    rw [List.cons_append, List.cons_append, List.cons_append, List.nil_append, decode, if_neg (by omega), if_neg (by omega),
      if_pos (by omega)]
    simp only [hc1, hc2, Bool.and_self, if_true, m6, m4]
    have e : ((0xE0 + c / 4096) % 16) <<< 12 ||| ((0x80 + c / 64 % 64) % 64) <<< 6 ||| (0x80 + c % 64) % 64 = c := by
      rw [or3 _ _ _ (by omega) (by omega)]; omega
    rw [e]
  | four h1 h2 =>
    have hc1 : second4 (0xF0 + c / 262144) (0x80 + c / 4096 % 64) = true := by
      simp only [second4, cont, Bool.and_eq_true, Bool.or_eq_true, bne_iff_ne, decide_eq_true_eq, ne_eq]
      omega
    have hc2 : cont (0x80 + c / 64 % 64) = true := by simp [cont]; omega
    have hc3 : cont (0x80 + c % 64) = true := by simp [cont]; omega
    rw [List.cons_append, List.cons_append, List.cons_append, List.cons_append, List.nil_append, decode, if_neg (by omega),
      if_neg (by omega), if_neg (by omega), if_pos (by omega)]
    simp only [hc1, hc2, hc3, Bool.and_self, if_true, m6, m3]
    have e : ((0xF0 + c / 262144) % 8) <<< 18 ||| ((0x80 + c / 4096 % 64) % 64) <<< 12 ||| ((0x80 + c / 64 % 64) % 64) <<< 6 |||
        (0x80 + c % 64) % 64 = c := by
      rw [or4 _ _ _ _ (by omega) (by omega) (by omega)]; omega
    rw [e]

/-- What was said is read. -/
theorem decode_says (s b : List Nat) (h : Says s b) : decode b = some s := by
  induction h with
  | nil => rfl
  | cons h1 _ ih => rw [decode_seq _ _ h1, ih]; rfl

theorem cont_iff (b : Nat) : cont b = true ↔ 0x80 ≤ b ∧ b < 0xC0 := by simp [cont]; omega

/-- What is read was said. -/
theorem says_decode (n : Nat) (b s : List Nat) (hn : b.length ≤ n) (h : decode b = some s) : Says s b := by
  have m6 (x : Nat) : x &&& 0x3F = x % 64 := and_ff x 6 _ rfl
  have m5 (x : Nat) : x &&& 0x1F = x % 32 := and_ff x 5 _ rfl
  have m4 (x : Nat) : x &&& 0xF = x % 16 := and_ff x 4 _ rfl
  have m3 (x : Nat) : x &&& 7 = x % 8 := and_ff x 3 _ rfl
  induction n generalizing b s with
  | zero =>
    have : b = [] := List.eq_nil_of_length_eq_zero (by omega)
    subst this
    simp only [decode] at h
    injection h with h
    subst h
    exact .nil
  | succ n ih =>
    cases b with
    | nil =>
      simp only [decode] at h
      injection h with h
      subst h
      exact .nil
    | cons x rest =>
      unfold decode at h
      by_cases h1 : x < 0x80
      · rw [if_pos h1] at h
        obtain ⟨s', h', rfl⟩ := Option.map_eq_some_iff.1 h
        exact .cons (a := [x]) (.one x h1) (ih rest s' (by simpa using hn) h')
      rw [if_neg h1] at h
      by_cases h2 : 0xC2 ≤ x ∧ x ≤ 0xDF
      · rw [if_pos h2] at h
        cases rest with
        | nil => cases h
        | cons y rest =>
          simp only [m6, m5] at h
          split at h
          · rename_i hy
            rw [cont_iff] at hy
            obtain ⟨s', h', rfl⟩ := Option.map_eq_some_iff.1 h
            have e : (x % 32) <<< 6 ||| y % 64 = (x - 0xC0) * 64 + (y - 0x80) := by
              rw [or2 _ _ (by omega)]; omega
            rw [e]
            have hs := Seq.two ((x - 0xC0) * 64 + (y - 0x80)) (by omega) (by omega)
            have e1 : 0xC0 + ((x - 0xC0) * 64 + (y - 0x80)) / 64 = x := by omega
            have e2 : 0x80 + ((x - 0xC0) * 64 + (y - 0x80)) % 64 = y := by omega
            rw [e1, e2] at hs
            exact .cons (a := [x, y]) hs (ih rest s' (by simp at hn; omega) h')
          · cases h
      rw [if_neg h2] at h
      by_cases h3 : 0xE0 ≤ x ∧ x ≤ 0xEF
      · rw [if_pos h3] at h
        match rest, h with
        | y :: z :: rest, h =>
          simp only [m6, m4] at h
          split at h
          · rename_i hy
            simp only [second3, Bool.and_eq_true, Bool.or_eq_true, bne_iff_ne, decide_eq_true_eq, ne_eq, cont_iff] at hy
            obtain ⟨s', h', rfl⟩ := Option.map_eq_some_iff.1 h
            have e : (x % 16) <<< 12 ||| (y % 64) <<< 6 ||| z % 64 = ((x - 0xE0) * 64 + (y - 0x80)) * 64 + (z - 0x80) := by
              rw [or3 _ _ _ (by omega) (by omega)]; omega
            rw [e]
            have hs := Seq.three (((x - 0xE0) * 64 + (y - 0x80)) * 64 + (z - 0x80)) (by omega) (by omega) (by omega)
            have e1 : 0xE0 + (((x - 0xE0) * 64 + (y - 0x80)) * 64 + (z - 0x80)) / 4096 = x := by omega
            have e2 : 0x80 + (((x - 0xE0) * 64 + (y - 0x80)) * 64 + (z - 0x80)) / 64 % 64 = y := by omega
            have e3 : 0x80 + (((x - 0xE0) * 64 + (y - 0x80)) * 64 + (z - 0x80)) % 64 = z := by omega
            rw [e1, e2, e3] at hs
            exact .cons (a := [x, y, z]) hs (ih rest s' (by simp at hn; omega) h')
          · cases h
        | [], h => cases h
        | [_], h => cases h
      rw [if_neg h3] at h
      by_cases h4 : 0xF0 ≤ x ∧ x ≤ 0xF4
      · rw [if_pos h4] at h
        match rest, h with
        | y :: z :: w :: rest, h =>
          simp only [m6, m3] at h
          split at h
          · rename_i hy
            simp only [second4, Bool.and_eq_true, Bool.or_eq_true, bne_iff_ne, decide_eq_true_eq, ne_eq, cont_iff] at hy
            obtain ⟨s', h', rfl⟩ := Option.map_eq_some_iff.1 h
            have e : (x % 8) <<< 18 ||| (y % 64) <<< 12 ||| (z % 64) <<< 6 ||| w % 64 =
                (((x - 0xF0) * 64 + (y - 0x80)) * 64 + (z - 0x80)) * 64 + (w - 0x80) := by
              rw [or4 _ _ _ _ (by omega) (by omega) (by omega)]; omega
            rw [e]
            generalize hv : (((x - 0xF0) * 64 + (y - 0x80)) * 64 + (z - 0x80)) * 64 + (w - 0x80) = v
            have hs := Seq.four v (by omega) (by omega)
            have e1 : 0xF0 + v / 262144 = x := by omega
            have e2 : 0x80 + v / 4096 % 64 = y := by omega
            have e3 : 0x80 + v / 64 % 64 = z := by omega
            have e4 : 0x80 + v % 64 = w := by omega
            rw [e1, e2, e3, e4] at hs
            exact .cons (a := [x, y, z, w]) hs (ih rest s' (by simp at hn; omega) h')
          · cases h
        | [], h => cases h
        | [_], h => cases h
        | [_, _], h => cases h
      rw [if_neg h4] at h
      cases h

/-- Reading is the converse of writing. -/
theorem decode_spec (s b : List Nat) : decode b = some s ↔ Says s b :=
  ⟨says_decode b.length b s (Nat.le_refl _), decode_says s b⟩

/-- The numbers in the bytes of a text are bytes. -/
theorem says_byte {s b : List Nat} (h : Says s b) : ∀ x ∈ b, x < 256 := by
  induction h with
  | nil => simp
  | cons h1 _ ih =>
    intro x hx
    rcases List.mem_append.1 hx with hx | hx
    · cases h1 <;> simp at hx <;> omega
    · exact ih x hx

/-- The bytes of a text are below 128 if and only if its code points are. -/
theorem says_ascii {s b : List Nat} (h : Says s b) : (∀ x ∈ b, x < 128) ↔ (∀ c ∈ s, c < 128) := by
  induction h with
  | nil => simp
  | @cons c a cs b h1 h2 ih =>
    simp only [List.mem_append, List.mem_cons]
    have : (∀ x ∈ a, x < 128) ↔ c < 128 := by cases h1 <;> simp <;> omega
    constructor
    · rintro h x (rfl | hx)
      · exact this.1 fun y hy => h y (.inl hy)
      · exact ih.1 (fun y hy => h y (.inr hy)) x hx
    · rintro h x (hx | hx)
      · exact this.2 (h c (.inl rfl)) x hx
      · exact ih.2 (fun y hy => h y (.inr hy)) x hx

end Utf8
end Dronecan
