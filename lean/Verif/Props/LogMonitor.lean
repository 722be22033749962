import Verif.Model.LogMonitor
import Verif.Props.TextField

/-!
# The log message monitor (C124)
-/

namespace Dronecan
namespace LogMonitor
open TextField

/-! ## Specification -/

/-- The severities of the DSDL definition of LogLevel. -/
def severity : Nat → Option Level
  | 0 => some .debug
  | 1 => some .info
  | 2 => some .warning
  | 3 => some .error
  | _ => none

/-- The message that a sender makes: it assigns the three fields of a new message. -/
def Made (d : Shape) (level : Nat) (source text : List Nat) (v : Val) : Prop :=
  ∃ l s t, assignField (.prim ⟨.unsigned, 3, d.levelTrunc⟩) (.prim []) (.int level) = (.ok (), l) ∧
    assign ⟨.unsigned, 8, d.sourceTrunc⟩ true d.sourceMax source [] = (.ok (), s) ∧
    assign ⟨.unsigned, 8, d.textTrunc⟩ true d.textMax text [] = (.ok (), t) ∧
    v = .comp none [.comp none [l], .arr s, .arr t]

/-- The text fits into its field. -/
def Fits (text : List Nat) (m : Nat) : Prop := IsStr text ∧ ∃ bytes, Utf8.Says text bytes ∧ bytes.length ≤ m

/-- What the log says: the node by three digits, the source and the text. -/
def Line (node : Nat) (source text line : List Nat) : Prop :=
  line = "LogMessageMonitor [#".toList.map Char.toNat ++ [48 + node / 100, 48 + node / 10 % 10, 48 + node % 10] ++
    ":".toList.map Char.toNat ++ source ++ "] ".toList.map Char.toNat ++ text

/-- Every log message that arrives, with whatever contents, is logged. -/
def C124_statement : Prop :=
  ∀ (d : Shape) (node : Nat) (bytes : List Byte) (tao : Bool) (v : Val) (rest : Bits), node ≤ 127 →
    unpack d.type (bitsFromBytes bytes) tao = .ok (v, rest) → ∃ r, onMessage d node v = .ok r

/-! ## Theorems -/

theorem format03_eq (n : Nat) (h : n ≤ 127) : format03 n = [48 + n / 100, 48 + n / 10 % 10, 48 + n % 10] := by
  have : ∀ n : Fin 128, format03 n = [48 + n.1 / 100, 48 + n.1 / 10 % 10, 48 + n.1 % 10] := by decide +kernel
  exact this ⟨n, by omega⟩

theorem levelAt_eq (n : Nat) : levelAt n = severity n := by
  match n with
  | 0 => rfl
  | 1 => rfl
  | 2 => rfl
  | 3 => rfl
  | n + 4 =>
    have : pyIndex 4 ((n + 4 : Nat) : Int) = none := by
      unfold pyIndex
      simp only
      rw [if_neg (by omega)]
    simp only [levelAt, this, severity]

/-- It is false: messages with one of the four unused levels are not logged (`IndexError`). -/
theorem C124_level_counterexample : onMessage {} 42 (.comp none [.comp none [.prim [true, false, false]], .arr [], .arr []]) = .error .indexError := by
  decide +kernel

/-- Nor is a message whose text was cut within a character (`UnicodeDecodeError`), whatever its level. -/
theorem C124_cut_counterexample : onMessage {} 42 (.comp none [.comp none [.prim [false, false, false]], .arr [],
    .arr [.prim (formatBin 8 0x41), .prim (formatBin 8 0xC3)]]) = .error .valueError := by decide +kernel

theorem C124_counterexample : ¬ C124_statement := by
  intro h
  have e : unpack ({} : Shape).type (bitsFromBytes [0x80]) true =
      .ok (.comp none [.comp none [.prim [true, false, false]], .arr [], .arr []], []) := by decide +kernel
  obtain ⟨r, hr⟩ := h {} 42 [0x80] true _ _ (by decide) e
  rw [C124_level_counterexample] at hr
  cases hr

/-- What the monitor does with a message of the type: it logs if the texts can be read and the level is known. -/
theorem C124_exact (d : Shape) (node : Nat) (hn : node ≤ 127) (a b : Option Nat) (level : Bits) (source text : List Val) (i : Nat)
    (hl : getInt ⟨.unsigned, 3, d.levelTrunc⟩ level = some (i : Int)) :
    (∀ f line, onMessage d node (.comp a [.comp b [.prim level], .arr source, .arr text]) = .ok (f, line) ↔
      severity i = some f ∧ ∃ s t, decode ⟨.unsigned, 8, d.sourceTrunc⟩ true source = .ok s ∧
        decode ⟨.unsigned, 8, d.textTrunc⟩ true text = .ok t ∧ Line node s t line) := by
  intro f line
  simp only [onMessage, hl, levelAt_eq]
  cases hs : decode ⟨.unsigned, 8, d.sourceTrunc⟩ true source with
  | error e => simp
  | ok s =>
    cases ht : decode ⟨.unsigned, 8, d.textTrunc⟩ true text with
    | error e => simp
    | ok t =>
      cases hv : severity i with
      | none => simp
      | some g =>
        simp only [Except.ok.injEq, Prod.mk.injEq, Option.some.injEq, exists_eq_left', Line, format03_eq node hn, points]
        constructor
        · rintro ⟨rfl, rfl⟩; exact ⟨rfl, s, t, rfl, rfl, rfl⟩
        · rintro ⟨rfl, _, _, rfl, rfl, rfl⟩; exact ⟨rfl, rfl⟩

/-- A message with one of the four levels and texts that fit arrives and is logged: with its level, its source and its text. -/
theorem C124_partial (d : Shape) (h1 : 0 < d.sourceMax) (h2 : 0 < d.textMax) (node : Nat) (hn : node ≤ 127) (level : Nat) (f : Level)
    (hl : severity level = some f) (source text : List Nat) (hs : Fits source d.sourceMax) (ht : Fits text d.textMax) (tao : Bool) :
    ∃ v, Made d level source text v ∧ ∃ bits rest v', pack d.type v tao = .ok bits ∧
      unpack d.type (bitsFromBytes (bytesFromBits bits)) tao = .ok (v', rest) ∧
      ∃ line, onMessage d node v' = .ok (f, line) ∧ Line node source text line := by
  obtain ⟨hs1, sb, hs2, hs3⟩ := hs
  obtain ⟨ht1, tb, ht2, ht3⟩ := ht
  obtain ⟨s, s1, s2, s3, s4, -⟩ := C123_partial d.sourceTrunc d.sourceMax source sb [] hs1 hs2 hs3
  obtain ⟨t, t1, t2, t3, t4, -⟩ := C123_partial d.textTrunc d.textMax text tb [] ht1 ht2 ht3
  have hlv : level < 4 := by
    match level, hl with
    | 0, _ | 1, _ | 2, _ | 3, _ => decide
    | n + 4, h => cases h
  have hset : ∀ n : Fin 4, ∀ tr : Bool, ∃ b, setInt ⟨.unsigned, 3, tr⟩ (n.1 : Int) = .ok b ∧ b.length = 3 ∧
      getInt ⟨.unsigned, 3, tr⟩ b = some (n.1 : Int) := by
    intro n tr
    have : ∀ (n : Fin 4) (tr : Bool), (match setInt ⟨.unsigned, 3, tr⟩ (n.1 : Int) with
        | .ok b => decide (b.length = 3 ∧ getInt ⟨.unsigned, 3, tr⟩ b = some (n.1 : Int))
        | .error _ => false) = true := by decide +kernel
    have := this n tr
    split at this
    · rename_i b hb
      exact ⟨b, hb, of_decide_eq_true this⟩
    · cases this
  obtain ⟨lb, l1, l2, l3⟩ := hset ⟨level, hlv⟩ d.levelTrunc
  simp only at l1 l3
  have hitems : ∀ (tr : Bool) (m : Nat) (text : List Nat) (items : List Val), (assign ⟨.unsigned, 8, tr⟩ true m text []) = (.ok (), items) →
      ∀ v ∈ items, hasTy (.prim ⟨.unsigned, 8, tr⟩) v = true := by
    intro tr m text items h v hv
    rw [assign_spec _ ⟨rfl, .inl rfl⟩] at h
    cases he : Utf8.encode text with
    | none => rw [he] at h; simp at h
    | some bytes =>
      rw [he] at h
      simp only [Prod.mk.injEq] at h
      rw [← h.2] at hv
      obtain ⟨b, -, rfl⟩ := List.mem_map.1 hv
      obtain ⟨x, hx⟩ := setInt_ok ⟨.unsigned, 8, tr⟩ ⟨rfl, .inl rfl⟩ (Int.ofNat b)
      have := setInt_length ⟨.unsigned, 8, tr⟩ (by show 1 ≤ 8; decide) (by show 8 ≤ 64; decide) (fun h => nomatch h) _ x hx
      simp only [item, hx, Except.toOption, Option.getD_some, hasTy]
      simpa using this
  refine ⟨.comp none [.comp none [.prim lb], .arr s, .arr t], ⟨.prim lb, s, t, ?_, s1, t1, rfl⟩, ?_⟩
  · simp only [assignField, l1]
  · have hwf : WfTy d.type = true := by simp [Shape.type, WfTy, WfTys, h1, h2]
    have hty : hasTy d.type (.comp none [.comp none [.prim lb], .arr s, .arr t]) = true := by
      simp only [Shape.type, hasTy, hasTys, l2, beq_self_eq_true, Bool.and_true, Bool.true_and, Bool.and_eq_true, List.all_eq_true]
      exact ⟨hitems _ _ _ _ s1, hitems _ _ _ _ t1⟩
    have hcanon : canon d.type (.comp none [.comp none [.prim lb], .arr s, .arr t]) = .comp none [.comp none [.prim lb], .arr s, .arr t] := by
      simp only [Shape.type, canon, canonFields, if_true]
      rw [List.take_of_length_le (by omega), List.take_of_length_le (by omega), List.map_id', List.map_id']
    obtain ⟨bits, rest, e1, e2⟩ := C06_roundtrip_exact d.type _ tao hwf hty hcanon
    refine ⟨bits, rest, _, e1, e2, ?_⟩
    refine ⟨_, (C124_exact d node hn none none lb s t level l3 f _).2 ⟨hl, source, text, s2, t2, rfl⟩, rfl⟩

/-! ## The hypotheses can be met -/

example : severity 2 = some .warning ∧ Fits sample 31 := by
  refine ⟨rfl, ?_, _, sample_says, by decide⟩
  intro c hc; simp [sample] at hc; omega

example : onMessage {} 7 (.comp none [.comp none [.prim [false, true, false]], .arr [.prim (formatBin 8 0x61)],
    .arr [.prim (formatBin 8 0xC3), .prim (formatBin 8 0xA9)]]) = .ok (.warning, points "LogMessageMonitor [#007:a] é") := by decide +kernel

end LogMonitor
end Dronecan
