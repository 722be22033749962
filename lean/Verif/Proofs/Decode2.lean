import Verif.Proofs.Decode

/-! Helper lemmas: decoded values are well typed; capacities. -/

namespace Dronecan

theorem unpackSeq_all {f : Bits → Bool → Except Err (Val × Bits)} {Q : Val → Prop} {tao : Bool}
    (hf : ∀ s b v r, (tao = false → b = false) → f s b = .ok (v, r) → Q v) (n : Nat) (s : Bits)
    (vs : List Val) (r : Bits) (h : unpackSeq f tao n s = .ok (vs, r)) : (∀ v ∈ vs, Q v) ∧ vs.length = n := by
  induction n generalizing s vs r with
  | zero => simp [unpackSeq] at h; simp [h.1]
  | succ n ih =>
    cases n with
    | zero =>
      simp only [unpackSeq, bind, Except.bind, pure, Except.pure] at h
      cases hc : f s tao with
      | error e => rw [hc] at h; simp at h
      | ok p =>
        obtain ⟨v, r'⟩ := p
        rw [hc] at h
        simp at h
        rw [← h.1]
        have := hf _ _ _ _ (fun h => h) hc
        simp [this]
    | succ n =>
      simp only [unpackSeq, bind, Except.bind, pure, Except.pure] at h
      cases hc : f s false with
      | error e => rw [hc] at h; simp at h
      | ok p =>
        obtain ⟨v, r'⟩ := p
        rw [hc] at h
        simp only at h
        cases hc2 : unpackSeq f tao (n + 1) r' with
        | error e => rw [hc2] at h; simp at h
        | ok p =>
          obtain ⟨vs', r''⟩ := p
          rw [hc2] at h
          simp at h
          have := ih r' vs' r'' hc2
          have hv := hf _ _ _ _ (fun _ => rfl) hc
          rw [← h.1]
          refine ⟨?_, by simp [this.2]⟩
          intro w hw
          rcases List.mem_cons.1 hw with rfl | hw
          · exact hv
          · exact this.1 w hw

theorem unpackTail_all {f : Bits → Bool → Except Err (Val × Bits)} {Q : Val → Prop}
    (hf : ∀ s v r, f s false = .ok (v, r) → Q v) (fuel : Nat) (s : Bits)
    (vs : List Val) (h : unpackTail f fuel s = .ok vs) : ∀ v ∈ vs, Q v := by
  induction fuel generalizing s vs with
  | zero =>
    unfold unpackTail at h
    by_cases h8 : s.length ≥ 8
    · rw [if_pos h8] at h; simp at h
    · rw [if_neg h8] at h; simp at h; simp [h]
  | succ fuel ih =>
    unfold unpackTail at h
    by_cases h8 : s.length ≥ 8
    · rw [if_pos h8] at h
      simp only [bind, Except.bind, pure, Except.pure] at h
      cases hc : f s false with
      | error e => rw [hc] at h; simp at h
      | ok p =>
        obtain ⟨v, r'⟩ := p
        rw [hc] at h
        simp only at h
        cases hc2 : unpackTail f fuel r' with
        | error e => rw [hc2] at h; simp at h
        | ok vs' =>
          rw [hc2] at h
          simp at h
          rw [← h]
          intro w hw
          rcases List.mem_cons.1 hw with rfl | hw
          · exact hf _ _ _ hc
          · exact ih _ _ hc2 w hw
    · rw [if_neg h8] at h; simp at h; simp [h]

/-- Pointwise relation of two lists of the same length. -/
def Fields2 (Q : Ty → Val → Prop) : List Ty → List Val → Prop
  | [], [] => True
  | f :: fs, v :: vs => Q f v ∧ Fields2 Q fs vs
  | _, _ => False

theorem unpackFields_all {Q : Ty → Val → Prop} (fs : List Ty) {tao : Bool}
    (hf : ∀ f ∈ fs, ∀ s b v r, (tao = false → b = false) → unpack f s b = .ok (v, r) → Q f v) (s : Bits)
    (vs : List Val) (r : Bits) (h : unpackFields fs s tao = .ok (vs, r)) : Fields2 Q fs vs := by
  induction fs generalizing s vs r with
  | nil => simp [unpackFields] at h; rw [h.1]; trivial
  | cons f fs ih =>
    cases fs with
    | nil =>
      simp only [unpackFields, bind, Except.bind, pure, Except.pure] at h
      cases hc : unpack f s tao with
      | error e => rw [hc] at h; simp at h
      | ok p =>
        obtain ⟨v, r'⟩ := p
        rw [hc] at h
        simp at h
        rw [← h.1]
        exact ⟨hf f (by simp) _ _ _ _ (fun h => h) hc, trivial⟩
    | cons g fs =>
      rw [unpackFields] at h
      · simp only [bind, Except.bind, pure, Except.pure] at h
        cases hc : unpack f s false with
        | error e => rw [hc] at h; simp at h
        | ok p =>
          obtain ⟨v, r'⟩ := p
          rw [hc] at h
          simp only at h
          cases hc2 : unpackFields (g :: fs) r' tao with
          | error e => rw [hc2] at h; simp at h
          | ok p =>
            obtain ⟨vs', r''⟩ := p
            rw [hc2] at h
            simp at h
            rw [← h.1]
            exact ⟨hf f (by simp) _ _ _ _ (fun _ => rfl) hc,
              ih (fun x hx => hf x (by simp [hx])) _ _ _ hc2⟩
      · simp

theorem unpackNth_all {Q : Ty → Val → Prop} (fs : List Ty) (tao : Bool)
    (hf : ∀ f ∈ fs, ∀ s v r, unpack f s tao = .ok (v, r) → Q f v) (hn : ∀ f ∈ fs, Q f (newVal f)) (i : Nat)
    (s : Bits) (vs : List Val) (r : Bits) (h : unpackNth fs i s tao = .ok (vs, r)) : Fields2 Q fs vs := by
  have news : ∀ fs : List Ty, (∀ f ∈ fs, Q f (newVal f)) → Fields2 Q fs (newVals fs) := by
    intro fs
    induction fs with
    | nil => intro _; simp [newVals, Fields2]
    | cons f fs ih =>
      intro hn
      simp only [newVals, Fields2]
      exact ⟨hn f (by simp), ih (fun g hg => hn g (by simp [hg]))⟩
  induction fs generalizing i vs with
  | nil => simp [unpackNth] at h
  | cons f fs ih =>
    cases i with
    | zero =>
      simp only [unpackNth, bind, Except.bind, pure, Except.pure] at h
      cases hc : unpack f s tao with
      | error e => rw [hc] at h; simp at h
      | ok p =>
        obtain ⟨v, r'⟩ := p
        rw [hc] at h
        simp at h
        rw [← h.1]
        exact ⟨hf f (by simp) _ _ _ hc, news fs (fun g hg => hn g (by simp [hg]))⟩
    | succ i =>
      simp only [unpackNth, bind, Except.bind, pure, Except.pure] at h
      cases hc : unpackNth fs i s tao with
      | error e => rw [hc] at h; simp at h
      | ok p =>
        obtain ⟨vs', r'⟩ := p
        rw [hc] at h
        simp at h
        rw [← h.1]
        have := ih (fun x hx => hf x (by simp [hx])) (fun x hx => hn x (by simp [hx])) i vs'
          (by rw [hc, h.2])
        exact ⟨hn f (by simp), this⟩

theorem Fields2_length {Q : Ty → Val → Prop} {fs : List Ty} {vs : List Val} (h : Fields2 Q fs vs) :
    vs.length = fs.length := by
  induction fs generalizing vs with
  | nil => cases vs <;> simp_all [Fields2]
  | cons f fs ih =>
    cases vs with
    | nil => simp [Fields2] at h
    | cons v vs => simp [ih h.2]

theorem Fields2_hasTys {fs : List Ty} {vs : List Val} (h : Fields2 (fun f v => hasTy f v = true) fs vs) :
    hasTys fs vs = true := by
  induction fs generalizing vs with
  | nil => cases vs <;> simp_all [Fields2, hasTys]
  | cons f fs ih =>
    cases vs with
    | nil => simp [Fields2] at h
    | cons v vs => simp [hasTys, h.1, ih h.2]

theorem Fields2_capOks {fs : List Ty} {vs : List Val} (h : Fields2 (fun f v => capOk f v = true) fs vs) :
    capOks fs vs = true := by
  induction fs generalizing vs with
  | nil => cases vs <;> simp_all [Fields2, capOks]
  | cons f fs ih =>
    cases vs with
    | nil => simp [Fields2] at h
    | cons v vs => simp [capOks, h.1, ih h.2]

/-- Case analysis of a successful `unpack` of an array. -/
theorem unpack_arr_ok {e : Ty} {d : Bool} {m : Nat} {s : Bits} {tao : Bool} {v : Val} {r : Bits}
    (h : unpack (.arr e d m) s tao = .ok (v, r)) :
    (d = false ∧ ∃ vs, v = .arr vs ∧ unpackSeq (fun s t => unpack e s t) tao m s = .ok (vs, r)) ∨
    (d = true ∧ (tao = true ∧ minBitlen e ≥ 8) ∧ r = [] ∧
      ∃ vs, v = .arr vs ∧ unpackTail (fun s t => unpack e s t) s.length s = .ok vs) ∨
    (d = true ∧ ¬ (tao = true ∧ minBitlen e ≥ 8) ∧ ∃ vs c, v = .arr vs ∧
      beFromLeBits (s.take (arrayLenBits m)) (arrayLenBits m) = .ok c ∧ c ≠ [] ∧
      unpackSeq (fun s t => unpack e s t) tao (natOfBits c) (s.drop (arrayLenBits m)) = .ok (vs, r)) := by
  cases d with
  | false =>
    left
    simp only [unpack, if_true, bind, Except.bind, pure, Except.pure] at h
    cases hc : unpackSeq (fun s t => unpack e s t) tao m s with
    | error er => rw [hc] at h; simp at h
    | ok p =>
      obtain ⟨vs, r'⟩ := p
      rw [hc] at h
      simp at h
      exact ⟨rfl, vs, h.1.symm, by rw [h.2]⟩
  | true =>
    right
    simp only [unpack] at h
    rw [if_neg (by simp)] at h
    by_cases htao : tao = true ∧ minBitlen e ≥ 8
    · left
      rw [if_pos htao] at h
      simp only [bind, Except.bind, pure, Except.pure] at h
      cases hc : unpackTail (fun s t => unpack e s t) s.length s with
      | error er => rw [hc] at h; simp at h
      | ok vs =>
        rw [hc] at h
        simp at h
        exact ⟨rfl, htao, h.2, vs, h.1.symm, rfl⟩
    · right
      rw [if_neg htao] at h
      simp only [bind, Except.bind, pure, Except.pure] at h
      cases hb : beFromLeBits (s.take (arrayLenBits m)) (arrayLenBits m) with
      | error er => rw [hb] at h; simp at h
      | ok c =>
        rw [hb] at h
        simp only at h
        by_cases hcn : c = []
        · rw [if_pos hcn] at h; simp at h
        · rw [if_neg hcn] at h
          cases hc : unpackSeq (fun s t => unpack e s t) tao (natOfBits c) (s.drop (arrayLenBits m)) with
          | error er => rw [hc] at h; simp at h
          | ok p =>
            obtain ⟨vs, r'⟩ := p
            rw [hc] at h
            simp at h
            exact ⟨rfl, htao, vs, c, h.1.symm, rfl, hcn, by rw [hc, h.2]⟩

/-- Case analysis of a successful `unpack` of a structure or union. -/
theorem unpack_comp_ok {u : Bool} {fs : List Ty} {s : Bits} {tao : Bool} {v : Val} {r : Bits}
    (h : unpack (.comp u fs) s tao = .ok (v, r)) :
    (u = false ∧ ∃ vs, v = .comp none vs ∧ unpackFields fs s tao = .ok (vs, r)) ∨
    (u = true ∧ ∃ vs tag, v = .comp (some tag) vs ∧ tag < fs.length ∧
      tag = natOfBits (s.take (unionTagBits fs.length)) ∧ s.take (unionTagBits fs.length) ≠ [] ∧
      unpackNth fs tag (s.drop (unionTagBits fs.length)) tao = .ok (vs, r)) := by
  cases u with
  | false =>
    left
    simp only [unpack, bind, Except.bind, pure, Except.pure] at h
    cases hc : unpackFields fs s tao with
    | error er => rw [hc] at h; simp at h
    | ok p =>
      obtain ⟨vs, r'⟩ := p
      rw [hc] at h
      simp at h
      exact ⟨rfl, vs, h.1.symm, by rw [h.2]⟩
  | true =>
    right
    simp only [unpack, bind, Except.bind, pure, Except.pure] at h
    by_cases h1 : s.take (unionTagBits fs.length) = []
    · rw [if_pos h1] at h; simp at h
    · rw [if_neg h1] at h
      by_cases h2 : natOfBits (s.take (unionTagBits fs.length)) ≥ fs.length
      · rw [if_pos h2] at h; simp at h
      · rw [if_neg h2] at h
        cases hc : unpackNth fs (natOfBits (s.take (unionTagBits fs.length)))
            (s.drop (unionTagBits fs.length)) tao with
        | error er => rw [hc] at h; simp at h
        | ok p =>
          obtain ⟨vs, r'⟩ := p
          rw [hc] at h
          simp at h
          exact ⟨rfl, vs, _, h.1.symm, by omega, rfl, h1, by rw [hc, h.2]⟩

theorem hasTy_unpack (t : Ty) : ∀ (s : Bits) (tao : Bool) (v : Val) (r : Bits),
    unpack t s tao = .ok (v, r) → hasTy t v = true := by
  induction t using Ty.induct with
  | void n => intro s tao v r h; simp [unpack] at h; simp [← h.1, hasTy]
  | prim p =>
    intro s tao v r h
    simp only [unpack] at h
    by_cases h0 : p.bitlen = 0
    · rw [if_neg (by simp [h0])] at h
      simp at h
      rw [← h.1]; exact hasTy_newVal _
    · rw [if_pos h0] at h
      simp only [bind, Except.bind, pure, Except.pure] at h
      by_cases hl : s.length < p.bitlen
      · rw [beFromLeBits_short s _ hl] at h; simp at h
      · rw [beFromLeBits_eq s _ (by omega)] at h
        simp at h
        simp [← h.1, hasTy]; omega
  | arr e d m ih =>
    intro s tao v r h
    rcases unpack_arr_ok h with ⟨_, vs, rfl, h'⟩ | ⟨_, _, _, vs, rfl, h'⟩ | ⟨_, _, vs, c, rfl, _, _, h'⟩
    · have := (unpackSeq_all (Q := fun v => hasTy e v = true) (fun s b v r _ h => ih s b v r h) _ _ _ _ h').1
      simpa [hasTy] using this
    · have := unpackTail_all (Q := fun v => hasTy e v = true) (fun s v r h => ih s false v r h) _ _ _ h'
      simpa [hasTy] using this
    · have := (unpackSeq_all (Q := fun v => hasTy e v = true) (fun s b v r _ h => ih s b v r h) _ _ _ _ h').1
      simpa [hasTy] using this
  | comp u fs ih =>
    intro s tao v r h
    rcases unpack_comp_ok h with ⟨_, vs, rfl, h'⟩ | ⟨hu, vs, tag, rfl, hlt, _, _, h'⟩
    · have := Fields2_hasTys (unpackFields_all (Q := fun f v => hasTy f v = true) fs
        (fun f hf s b v r _ h => ih f hf s b v r h) _ _ _ h')
      simp [hasTy, this]
    · have := Fields2_hasTys (unpackNth_all (Q := fun f v => hasTy f v = true) fs tao
        (fun f hf s v r h => ih f hf s tao v r h) (fun f _ => hasTy_newVal f) _ _ _ _ h')
      simp [hasTy, this, hu, hlt]

theorem capOk_newVal (t : Ty) : capOk t (newVal t) = true := by
  induction t using Ty.induct with
  | void n => simp [newVal, capOk]
  | prim p => simp [newVal, capOk]
  | arr e d m ih => cases d <;> simp [newVal, capOk, ih]
  | comp u fs ih =>
    simp only [newVal, capOk]
    induction fs with
    | nil => simp [newVals, capOks]
    | cons f fs ih2 =>
      simp only [newVals, capOks, Bool.and_eq_true]
      exact ⟨ih f (by simp), ih2 (fun g hg => ih g (by simp [hg]))⟩

theorem pow2Capss_eq (fs : List Ty) : pow2Capss fs = fs.all pow2Caps := by
  induction fs with
  | nil => simp [pow2Capss]
  | cons f fs ih => simp [pow2Capss, ih]

theorem capOk_unpack_false (t : Ty) : pow2Caps t = true → ∀ (s : Bits) (v : Val) (r : Bits),
    unpack t s false = .ok (v, r) → capOk t v = true := by
  induction t using Ty.induct with
  | void n => intro _ s v r h; simp [unpack] at h; simp [← h.1, capOk]
  | prim p =>
    intro _ s v r h
    cases v <;> simp [capOk]
  | arr e d m ih =>
    intro hp s v r h
    simp only [pow2Caps, Bool.and_eq_true] at hp
    rcases unpack_arr_ok h with ⟨hd, vs, rfl, h'⟩ | ⟨_, h', _⟩ | ⟨hd, _, vs, c, rfl, hc, _, h'⟩
    · have := unpackSeq_all (Q := fun v => capOk e v = true)
        (fun s b v r hb h => by have := hb rfl; subst this; exact ih hp.1 s v r h) _ _ _ _ h'
      subst hd
      simpa [capOk] using this
    · simp at h'
    · have h1 := unpackSeq_all (Q := fun v => capOk e v = true)
        (fun s b v r hb h => by have := hb rfl; subst this; exact ih hp.1 s v r h) _ _ _ _ h'
      subst hd
      have h2 : m + 1 = 2 ^ bitLength m := by simpa using hp.2
      have h3 : c.length = arrayLenBits m := by
        by_cases hl : (s.take (arrayLenBits m)).length < arrayLenBits m
        · rw [beFromLeBits_short _ _ hl] at hc; simp at hc
        · rw [beFromLeBits_eq _ _ (by omega)] at hc
          simp at hc
          rw [← hc]
          simp at hl ⊢
          omega
      have h4 := natOfBits_lt c
      rw [h3, arrayLenBits_eq_bitLength, ← h2] at h4
      simp only [capOk, if_true, Bool.and_eq_true, List.all_eq_true, decide_eq_true_eq]
      exact ⟨h1.1, by omega⟩
  | comp u fs ih =>
    intro hp s v r h
    simp only [pow2Caps, pow2Capss_eq, List.all_eq_true] at hp
    rcases unpack_comp_ok h with ⟨_, vs, rfl, h'⟩ | ⟨hu, vs, tag, rfl, hlt, _, _, h'⟩
    · exact Fields2_capOks (unpackFields_all (Q := fun f v => capOk f v = true) fs
        (fun f hf s b v r hb h => by have := hb rfl; subst this; exact ih f hf (hp f hf) s v r h) _ _ _ h')
    · exact Fields2_capOks (unpackNth_all (Q := fun f v => capOk f v = true) fs false
        (fun f hf s v r h => ih f hf (hp f hf) s v r h) (fun f _ => capOk_newVal f) _ _ _ _ h')

/-! ## Content of values -/

theorem canonFields_Fields2 {Q : Ty → Val → Prop} {fs : List Ty} {vs : List Val} (hvs : hasTys fs vs = true)
    (H : ∀ f ∈ fs, ∀ v, hasTy f v = true → Q f (canon f v)) : Fields2 Q fs (canonFields fs vs) := by
  induction fs generalizing vs with
  | nil => cases vs <;> simp_all [hasTys, canonFields, Fields2]
  | cons f fs ih =>
    cases vs with
    | nil => simp [hasTys] at hvs
    | cons v vs =>
      simp only [hasTys, Bool.and_eq_true] at hvs
      simp only [canonFields, Fields2]
      exact ⟨H f (by simp) v hvs.1, ih hvs.2 (fun g hg => H g (by simp [hg]))⟩

theorem newVals_Fields2 {Q : Ty → Val → Prop} {fs : List Ty} (N : ∀ f ∈ fs, Q f (newVal f)) :
    Fields2 Q fs (newVals fs) := by
  induction fs with
  | nil => simp [newVals, Fields2]
  | cons f fs ih =>
    simp only [newVals, Fields2]
    exact ⟨N f (by simp), ih (fun g hg => N g (by simp [hg]))⟩

theorem canonNth_Fields2 {Q : Ty → Val → Prop} {fs : List Ty} {vs : List Val} {i : Nat}
    (hvs : hasTys fs vs = true) (hi : i < fs.length)
    (H : ∀ f ∈ fs, ∀ v, hasTy f v = true → Q f (canon f v)) (N : ∀ f ∈ fs, Q f (newVal f)) :
    Fields2 Q fs (canonNth fs vs i) := by
  induction fs generalizing vs i with
  | nil => simp at hi
  | cons f fs ih =>
    cases vs with
    | nil => simp [hasTys] at hvs
    | cons v vs =>
      simp only [hasTys, Bool.and_eq_true] at hvs
      cases i with
      | zero =>
        simp only [canonNth, Fields2]
        exact ⟨H f (by simp) v hvs.1, newVals_Fields2 (fun g hg => N g (by simp [hg]))⟩
      | succ i =>
        simp only [canonNth, Fields2]
        exact ⟨N f (by simp), ih hvs.2 (by simpa using hi) (fun g hg => H g (by simp [hg]))
          (fun g hg => N g (by simp [hg]))⟩

theorem capOk_canon (t : Ty) : WfTy t = true → ∀ v, hasTy t v = true → capOk t (canon t v) = true := by
  induction t using Ty.induct with
  | void n => intro _ v hv; cases v <;> simp_all [hasTy, capOk]
  | prim p => intro _ v hv; cases v <;> simp_all [hasTy, capOk]
  | arr e d m ih =>
    intro hw v hv
    cases v <;> simp [hasTy] at hv
    rename_i items
    simp only [WfTy, Bool.and_eq_true, decide_eq_true_eq] at hw
    have H := fun v hv => ih hw.1 v hv
    cases d with
    | false =>
      simp only [canon, Bool.false_eq_true, if_false]
      simp only [capOk, Bool.false_eq_true, if_false, Bool.and_eq_true, List.all_eq_true, List.mem_map,
        beq_iff_eq, List.length_map, List.length_append, List.length_take, List.length_replicate]
      refine ⟨?_, by omega⟩
      rintro x ⟨w, hw, rfl⟩
      rcases List.mem_append.1 hw with hw | hw
      · exact H w (hv w (List.mem_of_mem_take hw))
      · rw [(List.mem_replicate.1 hw).2]; exact H _ (hasTy_newVal e)
    | true =>
      simp only [canon, if_true]
      simp only [capOk, if_true, Bool.and_eq_true, List.all_eq_true, List.mem_map,
        decide_eq_true_eq, List.length_map, List.length_take]
      refine ⟨?_, by omega⟩
      rintro x ⟨w, hw, rfl⟩
      exact H w (hv w (List.mem_of_mem_take hw))
  | comp u fs ih =>
    intro hw v hv
    cases v <;> simp [hasTy] at hv
    rename_i active vs
    obtain ⟨hvs, hact⟩ := hv
    simp only [WfTy, WfTys_eq, Bool.and_eq_true, List.all_eq_true] at hw
    have H : ∀ f ∈ fs, ∀ v, hasTy f v = true → capOk f (canon f v) = true := fun f hf v hv => ih f hf (hw.1 f hf) v hv
    cases u with
    | false =>
      simp only [canon, capOk]
      exact Fields2_capOks (canonFields_Fields2 hvs H)
    | true =>
      have h2l : 2 ≤ fs.length := by simpa using hw.2
      have hi : active.getD 0 < fs.length := by
        cases active with
        | none => simp; omega
        | some i => simpa using hact
      simp only [canon, capOk]
      exact Fields2_capOks (canonNth_Fields2 hvs hi H (fun f _ => capOk_newVal f))

theorem hasTy_canon (t : Ty) : WfTy t = true → ∀ v, hasTy t v = true → hasTy t (canon t v) = true := by
  intro hw v hv
  obtain ⟨bits, _, _, _, h⟩ := RT_false (rt t v hw hv false)
  exact hasTy_unpack t _ _ _ _ (h [])

theorem canonFields_idem (fs : List Ty) (vs : List Val) (H : ∀ f ∈ fs, ∀ v, canon f (canon f v) = canon f v) :
    canonFields fs (canonFields fs vs) = canonFields fs vs := by
  induction fs generalizing vs with
  | nil => simp [canonFields]
  | cons f fs ih =>
    cases vs with
    | nil => simp [canonFields]
    | cons v vs =>
      simp only [canonFields]
      rw [H f (by simp), ih vs (fun g hg => H g (by simp [hg]))]

theorem canonNth_idem (fs : List Ty) (vs : List Val) (i : Nat) (H : ∀ f ∈ fs, ∀ v, canon f (canon f v) = canon f v) :
    canonNth fs (canonNth fs vs i) i = canonNth fs vs i := by
  induction fs generalizing vs i with
  | nil => simp [canonNth]
  | cons f fs ih =>
    cases vs with
    | nil => simp [canonNth]
    | cons v vs =>
      cases i with
      | zero => simp only [canonNth]; rw [H f (by simp)]
      | succ i => simp only [canonNth]; rw [ih vs i (fun g hg => H g (by simp [hg]))]

theorem canon_idem (t : Ty) : ∀ v, canon t (canon t v) = canon t v := by
  induction t using Ty.induct with
  | void n => intro v; cases v <;> simp [canon]
  | prim p => intro v; cases v <;> simp [canon]
  | arr e d m ih =>
    intro v
    cases v with
    | arr items =>
      have hmap : ∀ l : List Val, (l.map fun v => canon e v).map (fun v => canon e v) = l.map fun v => canon e v := by
        intro l; rw [List.map_map]; apply List.map_congr_left; intro a _; exact ih a
      cases d with
      | true =>
        simp only [canon, if_true]
        rw [← List.map_take, hmap, List.take_take, Nat.min_self]
      | false =>
        simp only [canon, Bool.false_eq_true, if_false]
        have hl : (items.take m ++ List.replicate (m - items.length) (newVal e)).length = m := by simp; omega
        have h0 : m - ((items.take m ++ List.replicate (m - items.length) (newVal e)).map fun v => canon e v).length
            = 0 := by rw [List.length_map, hl]; omega
        rw [h0, List.replicate_zero, List.append_nil, List.take_of_length_le (by rw [List.length_map, hl]; omega),
          hmap]
    | void => simp [canon]
    | prim b => simp [canon]
    | comp a vs => simp [canon]
  | comp u fs ih =>
    intro v
    cases v with
    | comp a vs =>
      cases u with
      | true =>
        simp only [canon, Option.getD_some]
        rw [canonNth_idem fs vs _ ih]
      | false =>
        simp only [canon]
        rw [canonFields_idem fs vs ih]
    | void => cases u <;> simp [canon]
    | prim b => cases u <;> simp [canon]
    | arr vs => cases u <;> simp [canon]

end Dronecan
