import Verif.Proofs.YamlBlock

/-!
# The texts of primitive values
-/

namespace Dronecan
namespace Display

open Text Introspect Float16 YamlSpec
open Parser hiding Const

/-! ## Names of constants -/

theorem joinWith_mem (sep : Str) (ps : List Str) (c : Char) (h : c ∈ joinWith sep ps) : c ∈ sep ∨ ∃ p ∈ ps, c ∈ p := by
  induction ps with
  | nil => simp [joinWith] at h
  | cons p ps ih =>
    cases ps with
    | nil => simp only [joinWith] at h; exact .inr ⟨p, by simp, h⟩
    | cons q qs =>
      simp only [joinWith, List.mem_append] at h
      rcases h with (h | h) | h
      · exact .inr ⟨p, by simp, h⟩
      · exact .inl h
      · rcases ih h with h | ⟨r, hr, h⟩
        · exact .inl h
        · exact .inr ⟨r, List.mem_cons_of_mem _ hr, h⟩

theorem splitOnAux_mem (sep : Char) (s cur p : Str) (hp : p ∈ splitOnAux sep cur s) (c : Char) (h : c ∈ p) : c ∈ cur ∨ c ∈ s := by
  induction s generalizing cur with
  | nil =>
    simp only [splitOnAux, List.mem_singleton] at hp
    subst hp
    exact .inl (by simpa using h)
  | cons d ds ih =>
    simp only [splitOnAux] at hp
    split at hp
    · rcases List.mem_cons.1 hp with rfl | hp
      · exact .inl (by simpa using h)
      · rcases ih _ hp with h | h
        · cases h
        · exact .inr (by simp [h])
    · rcases ih _ hp with h | h
      · rcases List.mem_cons.1 h with rfl | h
        · exact .inr (by simp)
        · exact .inl h
      · exact .inr (by simp [h])

/-- A note can be made: the struct has fields, the name of the field is not empty, no name has a line feed. -/
def NoteOk (g : Args) : Prop := 0 < g.nfields ∧ g.field ≠ [] ∧ g.keep = false ∧ ∀ c ∈ g.consts, '\n' ∉ c.name

theorem formatOutput_line (g : Args) (hk : g.keep = false) (name : Str) (v : Num) (b : Bool) (h : '\n' ∉ name) : '\n' ∉ formatOutput g name v b := by
  unfold formatOutput
  rw [hk]
  simp only [Bool.false_eq_true, if_false]
  split
  · intro hm
    rcases joinWith_mem _ _ _ hm with hm | ⟨p, hp, hm⟩
    · simp [lit] at hm
    · rcases splitOnAux_mem _ _ _ _ (List.mem_of_mem_drop hp) _ hm with h' | h'
      · cases h'
      · exact h h'
  · exact h

theorem matchOnePrefix_line (g : Args) (hg : NoteOk g) (pre : Str) (v : Num) (s : Str) (h : matchOnePrefix g pre v = some s) : '\n' ∉ s := by
  unfold matchOnePrefix at h
  split at h
  · rename_i c hc
    cases h
    have : c ∈ [c] := by simp
    rw [← hc] at this
    exact hg.2.2.2 c (List.mem_filter.1 (List.mem_filter.1 this).1).1
  · cases h

theorem truthy_some (m : Option Str) (s : Str) (h : truthy m = some s) : m = some s := by
  unfold truthy at h
  split at h
  · cases h
  · exact h

theorem matchValue_line (g : Args) (hg : NoteOk g) (v : Num) : ∃ m, matchValue g v = .ok m ∧ ∀ s, m = some s → '\n' ∉ s := by
  unfold matchValue
  split
  · rename_i m hm
    exact ⟨_, rfl, fun s hs => by
      cases hs
      exact formatOutput_line g hg.2.2.1 m v true (matchOnePrefix_line g hg _ v m (truthy_some _ _ hm))⟩
  · split
    · rename_i hl
      exact absurd (List.getLast?_eq_none_iff.1 hl) hg.2.1
    · split
      · rename_i m hm
        refine ⟨_, rfl, fun s hs => ?_⟩
        cases hs
        split at hm
        · exact formatOutput_line g hg.2.2.1 m v true (matchOnePrefix_line g hg _ v m (truthy_some _ _ hm))
        · cases hm
      · split
        · rename_i m hm
          refine ⟨_, rfl, fun s hs => ?_⟩
          cases hs
          split at hm
          · exact formatOutput_line g hg.2.2.1 m v false (matchOnePrefix_line g hg _ v m (truthy_some _ _ hm))
          · cases hm
        · exact ⟨_, rfl, fun s hs => by cases hs⟩

theorem matchPowers_line (g : Args) (hg : NoteOk g) (ps : List Nat) (acc : List Str) (ha : ∀ s ∈ acc, '\n' ∉ s) :
    ∃ ms, matchPowers g ps acc = .ok ms ∧ ∀ s ∈ ms, '\n' ∉ s := by
  induction ps generalizing acc with
  | nil => exact ⟨acc, rfl, ha⟩
  | cons p ps ih =>
    obtain ⟨m, hm, hl⟩ := matchValue_line g hg (.int p)
    simp only [matchPowers, hm]
    cases ht : truthy m with
    | none => exact ⟨[], rfl, by simp⟩
    | some s =>
      refine ih (acc ++ [s]) ?_
      intro x hx
      rcases List.mem_append.1 hx with hx | hx
      · exact ha x hx
      · rw [List.mem_singleton] at hx
        subst hx
        exact hl x (truthy_some _ _ ht)

theorem note_line (g : Args) (hg : NoteOk g) (i : Int) : (∃ s, valueToConstantName g (.int i) = .ok (.text s) ∧ '\n' ∉ s) ∨
    ∃ v, valueToConstantName g (.int i) = .ok (.literal v) := by
  unfold valueToConstantName
  rw [if_neg (by have := hg.1; omega)]
  obtain ⟨m, hm, hl⟩ := matchValue_line g hg (.int i)
  simp only [hm]
  cases ht : truthy m with
  | some s => exact .inl ⟨s, rfl, hl s (truthy_some _ _ ht)⟩
  | none =>
    simp only [extractPowers]
    obtain ⟨ms, hms, hn⟩ := matchPowers_line g hg (powersFrom i.toNat 1) [] (by simp)
    simp only [hms]
    split
    · refine .inl ⟨_, rfl, fun h => ?_⟩
      rcases joinWith_mem _ _ _ h with h | ⟨p, hp, h⟩
      · simp [lit] at h
      · exact hn p hp h
    · exact .inr ⟨_, rfl⟩

/-! ## Primitive values -/

/-- The bits of a float stand for a finite number. -/
def finiteBits (bits : Bits) : Bool :=
  match floatOf bits with
  | some (.fin _ _) => true
  | _ => false

/-- Not a float that is infinite or not a number. -/
def clearPrim (p : PrimTy) (bits : Bits) : Bool := p.kind != .float || finiteBits bits

theorem floatOf_nonneg (bits : Bits) (neg : Bool) (q : Rat) (h : floatOf bits = some (.fin neg q)) : 0 ≤ q := by
  have h2 : ∀ k : Int, (0 : Rat) ≤ (2 : Rat) ^ k := fun k => Rat.le_of_lt (zpos k)
  have hn : ∀ n : Nat, (0 : Rat) ≤ (n : Rat) := fun n => Rat.natCast_nonneg
  have hi : ∀ ew mw u, ieee ew mw u = .fin neg q → 0 ≤ q := by
    intro ew mw u h
    unfold ieee at h
    simp only at h
    split at h
    · split at h <;> cases h
    · split at h
      · cases h; exact Rat.mul_nonneg (hn _) (h2 _)
      · cases h; exact Rat.mul_nonneg (hn _) (h2 _)
  unfold floatOf at h
  split at h
  · exact hi _ _ _ (Option.some.inj h)
  · split at h
    · exact hi _ _ _ (Option.some.inj h)
    · split at h
      · exact hi _ _ _ (Option.some.inj h)
      · cases h

/-- The text of a primitive value: a number or a word that says what the bits are, and perhaps a comment. -/
theorem leafText_means (p : PrimTy) (bits : Bits) (x : Py) (note : Option Args) (hg : ∀ g, note = some g → NoteOk g) (hw : WfN (.prim p) = true)
    (hb : bits.length = p.bitlen) (hx : PyMeans p bits x) (hc : clearPrim p bits = true) :
    ∃ s tail, leafText p note x = .ok (s ++ tail) ∧ Leaf s ∧ Note tail ∧ '\n' ∉ tail ∧ (note = none → tail = []) ∧ MeansPrim yamlForm p bits (resolve s) := by
  have hint : ∀ i : Int, x = .int i → (MeansPrim yamlForm p bits (.int i)) →
      ∃ s tail, leafText p note x = .ok (s ++ tail) ∧ Leaf s ∧ Note tail ∧ '\n' ∉ tail ∧ (note = none → tail = []) ∧ MeansPrim yamlForm p bits (resolve s) := by
    rintro i rfl hm
    cases note with
    | none => exact ⟨intText i, [], by simp [leafText], intText_leaf i, .inl rfl, by simp, fun _ => rfl, by rw [resolve_intText]; exact hm⟩
    | some g =>
      rcases note_line g (hg g rfl) i with ⟨s, h1, h2⟩ | ⟨v, h1⟩
      · refine ⟨intText i, lit " # " ++ s, by simp [leafText, h1], intText_leaf i, .inr ⟨' ' :: s, by simp [lit]⟩, ?_, fun e => (by cases e), by rw [resolve_intText]; exact hm⟩
        intro h
        rcases List.mem_append.1 h with h | h
        · simp [lit] at h
        · exact h2 h
      · exact ⟨intText i, [], by simp [leafText, h1], intText_leaf i, .inl rfl, by simp, fun _ => rfl, by rw [resolve_intText]; exact hm⟩
  unfold PyMeans at hx
  cases hk : p.kind <;> rw [hk] at hx <;> simp only at hx
  · subst hx
    cases hany : bits.any id <;> simp only [leafText]
    · exact ⟨lit "false", [], by simp, ⟨by simp [lit], by simp [lit, LeafChar]⟩, .inl rfl, by simp, fun _ => rfl, by
        unfold MeansPrim; rw [hk]; simp only [hany]; rfl⟩
    · exact ⟨lit "true", [], by simp, ⟨by simp [lit], by simp [lit, LeafChar]⟩, .inl rfl, by simp, fun _ => rfl, by
        unfold MeansPrim; rw [hk]; simp only [hany]; rfl⟩
  · exact hint _ hx (by unfold MeansPrim; rw [hk]; rfl)
  · exact hint _ hx (by unfold MeansPrim; rw [hk]; rfl)
  · obtain ⟨f, hf, rfl⟩ := hx
    simp only [clearPrim, hk, finiteBits, hf] at hc
    cases f with
    | inf n => simp at hc
    | nan n => simp at hc
    | fin neg q =>
      have hq := floatOf_nonneg bits neg q hf
      simp only [WfN, hk, Bool.and_eq_true, Bool.or_eq_true, beq_iff_eq] at hw
      have key : ∀ k, 0 < k → k = places bits.length → leafText p note (.flt (.fin neg q)) = .ok (fixed k (.fin neg q)) →
          ∃ s tail, leafText p note (.flt (.fin neg q)) = .ok (s ++ tail) ∧ Leaf s ∧ Note tail ∧ '\n' ∉ tail ∧ (note = none → tail = []) ∧ MeansPrim yamlForm p bits (resolve s) := by
        intro k hk0 hkp ht
        refine ⟨fixed k (.fin neg q), [], by simp [ht], fixed_leaf k neg q, .inl rfl, by simp, fun _ => rfl, ?_⟩
        rw [resolve_fixed k hk0]
        unfold MeansPrim
        rw [hk]
        refine ⟨_, hf, ?_⟩
        subst hkp
        exact ⟨fixedNat (places bits.length) q, rfl, fixedNat_near _ q hq⟩
      rcases hw.2 with (h | h) | h
      · exact key 4 (by omega) (by simp [places, hb, h]) (by simp [leafText, h])
      · exact key 6 (by omega) (by simp [places, hb, h]) (by simp [leafText, h])
      · exact key 9 (by omega) (by simp [places, hb, h]) (by simp [leafText, h])

end Display
end Dronecan
