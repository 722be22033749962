import Verif.Proofs.Codec

/-! Helper lemmas about decoding arbitrary input. -/

namespace Dronecan

/-- A decoder that never diverges, returns a suffix of its input and consumes at least `m` bits (or everything). -/
def Prog (f : Bits → Bool → Except Err (Val × Bits)) (m : Nat) : Prop :=
  ∀ s b, f s b ≠ .error .diverge ∧
    ∀ v r, f s b = .ok (v, r) → r <:+ s ∧ r.length ≤ s.length - m

theorem unpackSeq_prog {f : Bits → Bool → Except Err (Val × Bits)} {m : Nat} (hf : Prog f m) (tao : Bool)
    (n : Nat) (s : Bits) :
    unpackSeq f tao n s ≠ .error .diverge ∧
      ∀ vs r, unpackSeq f tao n s = .ok (vs, r) → r <:+ s ∧ r.length ≤ s.length - m * n := by
  induction n generalizing s with
  | zero => simp [unpackSeq]
  | succ n ih =>
    cases n with
    | zero =>
      have h := hf s tao
      simp only [unpackSeq, bind, Except.bind, pure, Except.pure]
      cases hc : f s tao with
      | error e => rw [hc] at h; simpa using h.1
      | ok p =>
        obtain ⟨v, r⟩ := p
        have := h.2 v r hc
        simp; exact this
    | succ n =>
      have h := hf s false
      simp only [unpackSeq, bind, Except.bind, pure, Except.pure]
      cases hc : f s false with
      | error e => rw [hc] at h; simpa using h.1
      | ok p =>
        obtain ⟨v, r⟩ := p
        have h1 := h.2 v r hc
        have h2 := ih r
        simp only
        cases hc2 : unpackSeq f tao (n + 1) r with
        | error e => rw [hc2] at h2; simpa using h2.1
        | ok p =>
          obtain ⟨vs, r2⟩ := p
          have h3 := h2.2 vs r2 hc2
          refine ⟨by simp, ?_⟩
          intro vs' r' he
          simp at he
          obtain ⟨rfl, rfl⟩ := he
          refine ⟨h3.1.trans h1.1, ?_⟩
          rw [Nat.mul_succ]
          omega

theorem unpackTail_prog {f : Bits → Bool → Except Err (Val × Bits)} {m : Nat} (hf : Prog f m) (hm : 8 ≤ m)
    (fuel : Nat) (s : Bits) (h : s.length ≤ 8 * fuel + 7) :
    unpackTail f fuel s ≠ .error .diverge ∧ ∀ vs, unpackTail f fuel s = .ok vs → 8 * vs.length ≤ s.length := by
  induction fuel generalizing s with
  | zero =>
    unfold unpackTail
    simp [show ¬ s.length ≥ 8 by omega]
  | succ fuel ih =>
    unfold unpackTail
    by_cases h8 : s.length ≥ 8
    · rw [if_pos h8]
      have h1 := hf s false
      simp only [bind, Except.bind, pure, Except.pure]
      cases hc : f s false with
      | error e => rw [hc] at h1; simpa using h1.1
      | ok p =>
        obtain ⟨v, r⟩ := p
        have h2 := h1.2 v r hc
        have h3 := ih r (by omega)
        simp only
        cases hc2 : unpackTail f fuel r with
        | error e => rw [hc2] at h3; simpa using h3.1
        | ok vs =>
          have := h3.2 vs hc2
          simp; omega
    · rw [if_neg h8]; simp

theorem unpackFields_prog (fs : List Ty) (H : ∀ f ∈ fs, Prog (unpack f) (minBitlen f)) (s : Bits) (tao : Bool) :
    unpackFields fs s tao ≠ .error .diverge ∧
      ∀ vs r, unpackFields fs s tao = .ok (vs, r) → r <:+ s ∧ r.length ≤ s.length - (fs.map minBitlen).sum := by
  induction fs generalizing s with
  | nil => simp [unpackFields]
  | cons f fs ih =>
    cases fs with
    | nil =>
      have h := H f (by simp) s tao
      simp only [unpackFields, bind, Except.bind, pure, Except.pure]
      cases hc : unpack f s tao with
      | error e => rw [hc] at h; simpa using h.1
      | ok p =>
        obtain ⟨v, r⟩ := p
        have := h.2 v r hc
        simp; exact this
    | cons g fs =>
      have h := H f (by simp) s false
      rw [unpackFields]
      · simp only [bind, Except.bind, pure, Except.pure]
        cases hc : unpack f s false with
        | error e => rw [hc] at h; simpa using h.1
        | ok p =>
          obtain ⟨v, r⟩ := p
          have h1 := h.2 v r hc
          have h2 := ih (fun x hx => H x (by simp [hx])) r
          simp only
          cases hc2 : unpackFields (g :: fs) r tao with
          | error e => rw [hc2] at h2; simpa using h2.1
          | ok p =>
            obtain ⟨vs, r2⟩ := p
            have h3 := h2.2 vs r2 hc2
            refine ⟨by simp, ?_⟩
            intro vs' r' he
            simp at he
            obtain ⟨rfl, rfl⟩ := he
            refine ⟨h3.1.trans h1.1, ?_⟩
            rw [List.map_cons, List.sum_cons]
            omega
      · simp

theorem unpackNth_prog (fs : List Ty) (H : ∀ f ∈ fs, Prog (unpack f) (minBitlen f)) (i : Nat) (s : Bits)
    (tao : Bool) :
    unpackNth fs i s tao ≠ .error .diverge ∧
      ∀ vs r, unpackNth fs i s tao = .ok (vs, r) →
        r <:+ s ∧ r.length ≤ s.length - listMin (fs.map minBitlen) := by
  have key : unpackNth fs i s tao ≠ .error .diverge ∧
      ∀ vs r, unpackNth fs i s tao = .ok (vs, r) → r <:+ s ∧ ∃ f ∈ fs, r.length ≤ s.length - minBitlen f := by
    induction fs generalizing i with
    | nil => simp [unpackNth]
    | cons f fs ih =>
      cases i with
      | zero =>
        have h := H f (by simp) s tao
        simp only [unpackNth, bind, Except.bind, pure, Except.pure]
        cases hc : unpack f s tao with
        | error e => rw [hc] at h; simpa using h.1
        | ok p =>
          obtain ⟨v, r⟩ := p
          have := h.2 v r hc
          refine ⟨by simp, ?_⟩
          intro vs' r' he
          simp at he
          obtain ⟨rfl, rfl⟩ := he
          exact ⟨this.1, f, by simp, this.2⟩
      | succ i =>
        have h := ih (fun x hx => H x (by simp [hx])) i
        simp only [unpackNth, bind, Except.bind, pure, Except.pure]
        cases hc : unpackNth fs i s tao with
        | error e => rw [hc] at h; simpa using h.1
        | ok p =>
          obtain ⟨vs, r⟩ := p
          have := h.2 vs r hc
          refine ⟨by simp, ?_⟩
          intro vs' r' he
          simp at he
          obtain ⟨rfl, rfl⟩ := he
          obtain ⟨h1, g, hg, h2⟩ := this
          exact ⟨h1, g, by simp [hg], h2⟩
  refine ⟨key.1, fun vs r h => ?_⟩
  obtain ⟨h1, f, hf, h2⟩ := key.2 vs r h
  have := listMin_le (fs.map minBitlen) (minBitlen f) (List.mem_map_of_mem hf)
  exact ⟨h1, by omega⟩

theorem unpack_prog (t : Ty) : WfTy t = true → Prog (unpack t) (minBitlen t) := by
  induction t using Ty.induct with
  | void n =>
    intro _ s b
    simp only [unpack, minBitlen]
    refine ⟨by simp, ?_⟩
    intro v r h
    simp at h
    obtain ⟨_, rfl⟩ := h
    exact ⟨List.drop_suffix _ _, by simp⟩
  | prim p =>
    intro _ s b
    simp only [unpack, minBitlen]
    by_cases h0 : p.bitlen = 0
    · simp only [h0, ne_eq, not_true_eq_false, if_false]
      refine ⟨by simp, ?_⟩
      intro v r h
      simp at h
      obtain ⟨_, rfl⟩ := h
      exact ⟨List.suffix_refl _, by omega⟩
    · simp only [h0, ne_eq, not_false_eq_true, if_true, bind, Except.bind, pure, Except.pure]
      by_cases hl : s.length < p.bitlen
      · rw [beFromLeBits_short s _ hl]; simp
      · rw [beFromLeBits_eq s _ (by omega)]
        refine ⟨by simp, ?_⟩
        intro v r h
        simp at h
        obtain ⟨_, rfl⟩ := h
        exact ⟨List.drop_suffix _ _, by simp⟩
  | arr e d m ih =>
    intro hw
    simp only [WfTy, Bool.and_eq_true, decide_eq_true_eq] at hw
    have he := ih hw.1
    intro s tao
    cases d with
    | false =>
      have h := unpackSeq_prog he tao m s
      simp only [unpack, if_true, bind, Except.bind, pure, Except.pure, minBitlen]
      cases hc : unpackSeq (fun s t => unpack e s t) tao m s with
      | error er => rw [hc] at h; simpa using h.1
      | ok p =>
        obtain ⟨vs, r⟩ := p
        have := h.2 vs r hc
        simp; exact this
    | true =>
      simp only [unpack, minBitlen, if_true]
      rw [if_neg (by simp)]
      by_cases htao : tao = true ∧ minBitlen e ≥ 8
      · rw [if_pos htao]
        have h := unpackTail_prog he htao.2 s.length s (by omega)
        simp only [bind, Except.bind, pure, Except.pure]
        cases hc : unpackTail (fun s t => unpack e s t) s.length s with
        | error er => rw [hc] at h; simpa using h.1
        | ok vs =>
          simp
      · rw [if_neg htao]
        simp only [bind, Except.bind, pure, Except.pure]
        by_cases hl : (s.take (arrayLenBits m)).length < arrayLenBits m
        · rw [beFromLeBits_short _ _ hl]; simp
        · rw [beFromLeBits_eq _ _ (by omega)]
          simp only
          split
          · simp
          · have h := unpackSeq_prog he tao
              (natOfBits (revSlices (List.take (arrayLenBits m) (List.take (arrayLenBits m) s))))
              (s.drop (arrayLenBits m))
            cases hc : unpackSeq (fun s t => unpack e s t) tao
                (natOfBits (revSlices (List.take (arrayLenBits m) (List.take (arrayLenBits m) s))))
                (s.drop (arrayLenBits m)) with
            | error er => rw [hc] at h; simpa using h.1
            | ok p =>
              obtain ⟨vs, r⟩ := p
              have h3 := h.2 vs r hc
              refine ⟨by simp, ?_⟩
              intro vs' r' he
              simp at he
              obtain ⟨rfl, rfl⟩ := he
              refine ⟨h3.1.trans (List.drop_suffix _ _), ?_⟩
              have := h3.1.length_le
              simp at this
              omega
  | comp u fs ih =>
    intro hw s tao
    simp only [WfTy, WfTys_eq, Bool.and_eq_true, List.all_eq_true] at hw
    have H : ∀ f ∈ fs, Prog (unpack f) (minBitlen f) := fun f hf => ih f hf (hw.1 f hf)
    cases u with
    | false =>
      have h := unpackFields_prog fs H s tao
      simp only [unpack, bind, Except.bind, pure, Except.pure, minBitlen, minBitlens_eq]
      cases hc : unpackFields fs s tao with
      | error er => rw [hc] at h; simpa using h.1
      | ok p =>
        obtain ⟨vs, r⟩ := p
        have h3 := h.2 vs r hc
        refine ⟨by simp, ?_⟩
        intro vs' r' he
        simp at he
        obtain ⟨rfl, rfl⟩ := he
        refine ⟨h3.1, ?_⟩
        split <;> simp_all <;> omega
    | true =>
      have h2l : 2 ≤ fs.length := by simpa using hw.2
      simp only [unpack, bind, Except.bind, pure, Except.pure, minBitlen, minBitlens_eq]
      split
      · simp
      · split
        · simp
        · have h := unpackNth_prog fs H (natOfBits (s.take (unionTagBits fs.length)))
            (s.drop (unionTagBits fs.length)) tao
          cases hc : unpackNth fs (natOfBits (s.take (unionTagBits fs.length)))
            (s.drop (unionTagBits fs.length)) tao with
          | error er => rw [hc] at h; simpa using h.1
          | ok p =>
            obtain ⟨vs, r⟩ := p
            have h3 := h.2 vs r hc
            refine ⟨by simp, ?_⟩
            intro vs' r' he
            simp at he
            obtain ⟨rfl, rfl⟩ := he
            refine ⟨h3.1.trans (List.drop_suffix _ _), ?_⟩
            have h4 := h3.2
            simp at h4
            rw [if_neg (by omega), if_pos trivial, ← unionTagBits_eq_bitLength _ h2l]
            omega

end Dronecan
