import Verif.Model.GnssTools
import Verif.Proofs.Dict
import Verif.Proofs.Double
import Verif.Proofs.FlMono

/-!
# The examples that watch GNSS messages (C153, C154)
-/

namespace Dronecan
namespace GnssTools

/-! ## Specification: gaps -/

/-- The time of the last message of a node. -/
def lastOf (node : Int) (history : List (Int × Rat)) : Option Rat := (history.reverse.find? (·.1 = node)).map (·.2)

/-- The gaps: a message comes later than the threshold after the previous one of the node. Only the nodes watched count. -/
def expected (watched : Int → Bool) (threshold : Rat) : List (Int × Rat) → List (Int × Rat) → List (Int × Rat)
  | _, [] => []
  | history, m :: ms =>
    (match lastOf m.1 history with
      | none => []
      | some before => if watched m.1 = true ∧ threshold < fl (m.2 - before) then [(m.1, fl (m.2 - before))] else []) ++
    expected watched threshold (history ++ [m]) ms

/-- The times of a node's messages do not go back. -/
def Forward (ms : List (Int × Rat)) : Prop := ms.Pairwise (fun a b => a.1 = b.1 → a.2 ≤ b.2)

/-- The nodes watched: that of the option, or all. -/
def watchedBy (source : Option Int) (node : Int) : Bool := source == none || source == some node

/-! ## Gaps -/

theorem fl_pos {q : Rat} (h : 0 < q) : 0 < fl q := by
  have h1 := (fl_error q h).2
  have h2 : q / 2 ^ 53 < q := by
    rw [Rat.div_def]
    have : (2 ^ 53 : Rat)⁻¹ < 1 := by decide +kernel
    have := Rat.mul_lt_mul_of_pos_left this h
    rwa [Rat.mul_one] at this
  grind

theorem fl_nonneg {q : Rat} (h : 0 ≤ q) : 0 ≤ fl q := by
  have := fl_mono Rat.le_refl h
  rwa [fl_zero] at this

theorem smooth_pos {a b : Rat} (ha : 0 < a) (hb : 0 ≤ b) : 0 < smooth a b := by
  have h1 : (0 : Rat) < fl (9 / 10) := fl_pos (by decide +kernel)
  have h2 : (0 : Rat) < fl (1 / 10) := fl_pos (by decide +kernel)
  have h3 := fl_pos (Rat.mul_pos h1 ha)
  have h4 := fl_nonneg (Rat.mul_nonneg (Rat.le_of_lt h2) hb)
  exact fl_pos (by grind)

theorem c9 : fl (9 / 10) = 8106479329266893 / 9007199254740992 := by decide +kernel
theorem c1 : fl (1 / 10) = 3602879701896397 / 36028797018963968 := by decide +kernel

theorem fl_bounds {q : Rat} (h : 0 < q) : q * (1 - 1 / 9007199254740992) ≤ fl q ∧ fl q ≤ q * (1 + 1 / 9007199254740992) := by
  have := fl_error q h
  have e : q / 2 ^ 53 = q * (1 / 9007199254740992) := by
    rw [Rat.div_def]; congr 1
    decide +kernel
  rw [e] at this
  grind

theorem smooth_le {a b M : Rat} (hM : 0 < M) (ha : 0 < a) (hb : 0 < b) (h1 : a ≤ M * (1 + 1 / 1099511627776)) (h2 : b ≤ M * (1 + 1 / 9007199254740992)) :
    smooth a b ≤ M * (1 + 1 / 1099511627776) := by
  unfold smooth
  rw [c9, c1]
  have p1 := fl_bounds (Rat.mul_pos (by decide +kernel : (0 : Rat) < 8106479329266893 / 9007199254740992) ha)
  have p2 := fl_bounds (Rat.mul_pos (by decide +kernel : (0 : Rat) < 3602879701896397 / 36028797018963968) hb)
  have q1 := fl_pos (Rat.mul_pos (by decide +kernel : (0 : Rat) < 8106479329266893 / 9007199254740992) ha)
  have q2 := fl_pos (Rat.mul_pos (by decide +kernel : (0 : Rat) < 3602879701896397 / 36028797018963968) hb)
  generalize fl (8106479329266893 / 9007199254740992 * a) = x at *
  generalize fl (3602879701896397 / 36028797018963968 * b) = y at *
  have p3 := fl_bounds (q := x + y) (by grind)
  generalize fl (x + y) = z at *
  grind

theorem smooth_ge {a b M : Rat} (hM : 0 < M) (ha : 0 < a) (hb : 0 < b) (h1 : M * (1 - 1 / 1099511627776) ≤ a) (h2 : M * (1 - 1 / 9007199254740992) ≤ b) :
    M * (1 - 1 / 1099511627776) ≤ smooth a b := by
  unfold smooth
  rw [c9, c1]
  have p1 := fl_bounds (Rat.mul_pos (by decide +kernel : (0 : Rat) < 8106479329266893 / 9007199254740992) ha)
  have p2 := fl_bounds (Rat.mul_pos (by decide +kernel : (0 : Rat) < 3602879701896397 / 36028797018963968) hb)
  have q1 := fl_pos (Rat.mul_pos (by decide +kernel : (0 : Rat) < 8106479329266893 / 9007199254740992) ha)
  have q2 := fl_pos (Rat.mul_pos (by decide +kernel : (0 : Rat) < 3602879701896397 / 36028797018963968) hb)
  generalize fl (8106479329266893 / 9007199254740992 * a) = x at *
  generalize fl (3602879701896397 / 36028797018963968 * b) = y at *
  have p3 := fl_bounds (q := x + y) (by grind)
  generalize fl (x + y) = z at *
  grind

/-- From a length of time to a rate. -/
theorem rate_bounds {d m M : Rat} (hm : 0 < m) (h1 : m * (1 - 1 / 1099511627776) ≤ d) (h2 : d ≤ M * (1 + 1 / 1099511627776)) :
    (1 - 1 / 549755813888) ≤ fl (1 / d) * M ∧ fl (1 / d) * m ≤ 1 + 1 / 549755813888 := by
  have hd : 0 < d := by grind
  have hi : (1 / d) * d = 1 := by rw [Rat.div_def, Rat.one_mul]; exact Rat.inv_mul_cancel _ (Rat.ne_of_gt hd)
  have hp : 0 < 1 / d := by rw [Rat.div_def, Rat.one_mul]; exact Rat.inv_pos.2 hd
  obtain ⟨b1, b2⟩ := fl_bounds hp
  have hM : 0 < M := by grind
  have f0 := fl_pos hp
  generalize fl (1 / d) = r at *
  generalize 1 / d = i at *
  have k1 : i * d ≤ i * (M * (1 + 1 / 1099511627776)) := Rat.mul_le_mul_of_nonneg_left h2 (Rat.le_of_lt hp)
  have k2 : i * (m * (1 - 1 / 1099511627776)) ≤ i * d := Rat.mul_le_mul_of_nonneg_left h1 (Rat.le_of_lt hp)
  have k3 : i * (1 - 1 / 9007199254740992) * M ≤ r * M := Rat.mul_le_mul_of_nonneg_right b1 (Rat.le_of_lt hM)
  have k4 : r * m ≤ i * (1 + 1 / 9007199254740992) * m := Rat.mul_le_mul_of_nonneg_right b2 (Rat.le_of_lt hm)
  have e1 : i * (M * (1 + 1 / 1099511627776)) = (i * M) * (1 + 1 / 1099511627776) := by grind
  have e2 : i * (m * (1 - 1 / 1099511627776)) = (i * m) * (1 - 1 / 1099511627776) := by grind
  have e3 : i * (1 - 1 / 9007199254740992) * M = (i * M) * (1 - 1 / 9007199254740992) := by grind
  have e4 : i * (1 + 1 / 9007199254740992) * m = (i * m) * (1 + 1 / 9007199254740992) := by grind
  rw [e1] at k1; rw [e2] at k2; rw [e3] at k3; rw [e4] at k4
  generalize i * M = u at *
  generalize i * m = v at *
  generalize r * M = x at *
  generalize r * m = y at *
  grind

/-- The variables say the last times of the nodes watched, and the averages are positive. -/
structure Knows (source : Option Int) (history : List (Int × Rat)) (s : Gaps) : Prop where
  last : ∀ n, watchedBy source n = true → s.last.get? n = lastOf n history
  low : ∀ n t, s.last.get? n = some t → ∃ l, s.lowpass.get? n = some l ∧ 0 < l

theorem lastOf_snoc (n : Int) (history : List (Int × Rat)) (m : Int × Rat) :
    lastOf n (history ++ [m]) = if m.1 = n then some m.2 else lastOf n history := by
  simp only [lastOf, List.reverse_append, List.reverse_cons, List.reverse_nil, List.nil_append, List.singleton_append, List.find?_cons]
  by_cases h : m.1 = n
  · simp [h]
  · simp [h]

theorem lastOf_mem {n : Int} {history : List (Int × Rat)} {t : Rat} (h : lastOf n history = some t) : (n, t) ∈ history := by
  simp only [lastOf, Option.map_eq_some_iff] at h
  obtain ⟨a, ha, rfl⟩ := h
  have h1 := List.mem_of_find?_eq_some ha
  have h2 := List.find?_some ha
  simp only [decide_eq_true_eq] at h2
  subst h2
  exact List.mem_reverse.1 h1

theorem handleFix2_step {source : Option Int} {threshold : Rat} {history : List (Int × Rat)} {s : Gaps} (hk : Knows source history s) (m : Int × Rat)
    (hf : ∀ a ∈ history, a.1 = m.1 → a.2 ≤ m.2) :
    (handleFix2 source threshold m.1 m.2 s).1 = .ok () ∧ Knows source (history ++ [m]) (handleFix2 source threshold m.1 m.2 s).2 ∧
    ∃ new, (handleFix2 source threshold m.1 m.2 s).2.out = s.out ++ new ∧ (∀ x ∈ new, 0 < x.2.2) ∧
      new.map (fun x => (x.1, x.2.1)) = (match lastOf m.1 history with
        | none => []
        | some before => if watchedBy source m.1 = true ∧ threshold < fl (m.2 - before) then [(m.1, fl (m.2 - before))] else []) := by
  by_cases hw : watchedBy source m.1 = true
  · have hc : ¬ (source ≠ none ∧ source ≠ some m.1) := by
      simp only [watchedBy, Bool.or_eq_true, beq_iff_eq] at hw
      rintro ⟨h1, h2⟩
      rcases hw with h | h
      · exact h1 h
      · exact h2 h
    simp only [handleFix2, if_neg hc, hk.last _ hw, hw, true_and]
    cases hl : lastOf m.1 history with
    | none =>
      refine ⟨rfl, ⟨?_, ?_⟩, [], (List.append_nil _).symm, (fun x hx => nomatch hx), rfl⟩
      · intro n hn
        rw [lastOf_snoc]
        show (s.last.set m.1 m.2).get? n = _
        rw [Dict.get?_set]
        by_cases h : m.1 = n
        · simp [h]
        · simp only [h, if_false]
          exact hk.last n hn
      · intro n t h
        have h : (s.last.set m.1 m.2).get? n = some t := h
        show ∃ l, (s.lowpass.set m.1 (fl (1 / 5))).get? n = some l ∧ 0 < l
        rw [Dict.get?_set] at h ⊢
        by_cases h' : m.1 = n
        · simp only [h', if_true]
          exact ⟨_, rfl, fl_pos (by decide +kernel)⟩
        · simp only [h', if_false] at h ⊢
          exact hk.low n t h
    | some before =>
      obtain ⟨l, hl1, hl2⟩ := hk.low m.1 before (by rw [hk.last _ hw, hl])
      have hb := hf _ (lastOf_mem hl) rfl
      have hdt : 0 ≤ fl (m.2 - before) := fl_nonneg (by grind)
      have hlow := smooth_pos hl2 hdt
      have hkn : ∀ out, Knows source (history ++ [m])
          { last := s.last.set m.1 m.2, lowpass := s.lowpass.set m.1 (smooth l (fl (m.2 - before))), out := out } := by
        refine fun out => ⟨?_, ?_⟩
        · intro n hn
          rw [lastOf_snoc]
          show (s.last.set m.1 m.2).get? n = _
          rw [Dict.get?_set]
          by_cases h : m.1 = n
          · simp [h]
          · simp only [h, if_false]
            exact hk.last n hn
        · intro n t h
          have h : (s.last.set m.1 m.2).get? n = some t := h
          show ∃ l', (s.lowpass.set m.1 (smooth l (fl (m.2 - before)))).get? n = some l' ∧ 0 < l'
          rw [Dict.get?_set] at h ⊢
          by_cases h' : m.1 = n
          · simp only [h', if_true]
            exact ⟨_, rfl, hlow⟩
          · simp only [h', if_false] at h ⊢
            exact hk.low n t h
      simp only [hl1]
      by_cases ht : threshold < fl (m.2 - before)
      · simp only [ht, if_true, if_neg (Rat.ne_of_gt hlow)]
        refine ⟨trivial, hkn _, _, rfl, ?_, rfl⟩
        intro x hx
        obtain rfl : x = _ := by simpa using hx
        exact fl_pos (by rw [Rat.div_def, Rat.one_mul]; exact Rat.inv_pos.2 hlow)
      · simp only [ht, if_false]
        exact ⟨trivial, hkn _, [], (List.append_nil _).symm, (fun x hx => nomatch hx), rfl⟩
  · have hc : source ≠ none ∧ source ≠ some m.1 := by
      simp only [watchedBy, Bool.or_eq_true, beq_iff_eq, not_or] at hw
      exact hw
    simp only [handleFix2, if_pos hc]
    refine ⟨trivial, ⟨?_, hk.low⟩, [], (List.append_nil _).symm, (fun x hx => nomatch hx), ?_⟩
    · intro n hn
      rw [lastOf_snoc, if_neg (by rintro rfl; exact hw hn)]
      exact hk.last n hn
    · cases lastOf m.1 history with
      | none => rfl
      | some b => simp [hw]

theorem gaps_from (source : Option Int) (threshold : Rat) (ms : List (Int × Rat)) : ∀ (history : List (Int × Rat)) (s : Gaps),
    Knows source history s → Forward (history ++ ms) →
    ∃ new, (gaps source threshold ms s).out = s.out ++ new ∧ (∀ x ∈ new, 0 < x.2.2) ∧
      new.map (fun x => (x.1, x.2.1)) = expected (watchedBy source) threshold history ms := by
  induction ms with
  | nil => exact fun history s _ _ => ⟨[], (List.append_nil _).symm, (fun x hx => nomatch hx), rfl⟩
  | cons m ms ih =>
    intro history s hk hf
    have hf' : ∀ a ∈ history, a.1 = m.1 → a.2 ≤ m.2 := fun a ha => (List.pairwise_append.1 hf).2.2 a ha m List.mem_cons_self
    obtain ⟨-, h2, new, h3, h4, h5⟩ := handleFix2_step (threshold := threshold) hk m hf'
    obtain ⟨new', h6, h7, h8⟩ := ih (history ++ [m]) _ h2 (by simpa [List.append_assoc] using hf)
    refine ⟨new ++ new', ?_, ?_, ?_⟩
    · simp only [gaps]
      rw [h6, h3, List.append_assoc]
    · intro x hx
      rcases List.mem_append.1 hx with h | h
      · exact h4 x h
      · exact h7 x h
    · rw [List.map_append, h5, h8]
      rfl

/-- The full claim: whatever the time stamps are, the gaps are printed, in order. -/
def C153_statement : Prop :=
  ∀ (source : Option Int) (threshold : Rat) (ms : List (Int × Rat)),
    (gaps source threshold ms {}).out.map (fun x => (x.1, x.2.1)) = expected (watchedBy source) threshold [] ms

/-- **C153** (gaps): if the time stamps of each node do not go back, exactly the gaps are printed, in order, with their lengths and a positive rate. -/
theorem C153_gaps_partial (source : Option Int) (threshold : Rat) (ms : List (Int × Rat)) (hf : Forward ms) :
    (gaps source threshold ms {}).out.map (fun x => (x.1, x.2.1)) = expected (watchedBy source) threshold [] ms ∧
    ∀ x ∈ (gaps source threshold ms {}).out, 0 < x.2.2 := by
  obtain ⟨new, h1, h2, h3⟩ := gaps_from source threshold ms [] {} ⟨fun n _ => rfl, fun n t h => nomatch h⟩ hf
  rw [show ({} : Gaps).out = [] from rfl, List.nil_append] at h1
  rw [h1]
  exact ⟨h3, h2⟩

/-- Node 7 is late once, node 9 never; and only node 7 is watched. -/
example : Forward [(7, 10), (9, 10), (7, 11), (9, 21 / 2), (7, 23 / 2)] ∧
    (gaps (some 7) (3 / 4) [(7, 10), (9, 10), (7, 11), (9, 21 / 2), (7, 23 / 2)] {}).out.map (fun x => (x.1, x.2.1)) = [(7, 1)] := by
  refine ⟨?_, by decide +kernel⟩
  simp only [Forward]
  decide +kernel

/-- The messages of a node are at least `m` and at most `M` seconds apart. -/
def Apart (m M : Rat) (ms : List (Int × Rat)) : Prop :=
  ∀ pre n t1 mid t2 post, ms = pre ++ (n, t1) :: mid ++ (n, t2) :: post → (∀ x ∈ mid, x.1 ≠ n) → m ≤ t2 - t1 ∧ t2 - t1 ≤ M

theorem lastOf_split {n : Int} {t : Rat} (history : List (Int × Rat)) (h : lastOf n history = some t) :
    ∃ pre mid, history = pre ++ (n, t) :: mid ∧ ∀ x ∈ mid, x.1 ≠ n := by
  simp only [lastOf, Option.map_eq_some_iff] at h
  obtain ⟨a, ha, rfl⟩ := h
  obtain ⟨h1, as, bs, h2, h3⟩ := List.find?_eq_some_iff_append.1 ha
  simp only [decide_eq_true_eq] at h1
  subst h1
  refine ⟨bs.reverse, as.reverse, ?_, ?_⟩
  · have := congrArg List.reverse h2
    simpa using this
  · intro x hx
    have := h3 x (List.mem_reverse.1 hx)
    simpa using this

/-- The averages are between the bounds, but for rounding. -/
def Near (m M d : Rat) : Prop := m * (1 - 1 / 1099511627776) ≤ d ∧ d ≤ M * (1 + 1 / 1099511627776)

theorem near_fl {m M q : Rat} (hm : 0 < m) (h1 : m ≤ q) (h2 : q ≤ M) : Near m M (fl q) := by
  have := fl_bounds (q := q) (by grind)
  constructor <;> grind

theorem near_smooth {m M d q : Rat} (hm : 0 < m) (hd : Near m M d) (h1 : m ≤ q) (h2 : q ≤ M) : Near m M (smooth d (fl q)) := by
  have hq := fl_bounds (q := q) (by grind)
  have hp := fl_pos (q := q) (by grind)
  have hd0 : 0 < d := by have := hd.1; grind
  exact ⟨smooth_ge hm hd0 hp hd.1 (by grind), smooth_le (by grind) hd0 hp hd.2 (by grind)⟩

theorem gaps_rates {m M : Rat} (source : Option Int) (threshold : Rat) (hm : 0 < m) (h5 : m ≤ 1 / 5) (h5' : 1 / 5 ≤ M) (ms : List (Int × Rat)) :
    ∀ (history : List (Int × Rat)) (s : Gaps), Knows source history s → Forward (history ++ ms) → Apart m M (history ++ ms) →
    (∀ n l, s.lowpass.get? n = some l → Near m M l) → (∀ x ∈ s.out, 1 - 1 / 549755813888 ≤ x.2.2 * M ∧ x.2.2 * m ≤ 1 + 1 / 549755813888) →
    ∀ x ∈ (gaps source threshold ms s).out, 1 - 1 / 549755813888 ≤ x.2.2 * M ∧ x.2.2 * m ≤ 1 + 1 / 549755813888 := by
  induction ms with
  | nil => exact fun history s _ _ _ _ h => h
  | cons a ms ih =>
    intro history s hk hf ha hl ho
    have hf' : ∀ b ∈ history, b.1 = a.1 → b.2 ≤ a.2 := fun b hb => (List.pairwise_append.1 hf).2.2 b hb a List.mem_cons_self
    have hk' := (handleFix2_step (threshold := threshold) hk a hf').2.1
    refine ih (history ++ [a]) _ hk' (by simpa [List.append_assoc] using hf) (by simpa [List.append_assoc] using ha) ?_ ?_
    · intro n l hn
      unfold handleFix2 at hn
      split at hn
      · exact hl n l hn
      · rename_i hw
        split at hn
        · have hn : (s.lowpass.set a.1 (fl (1 / 5))).get? n = some l := hn
          rw [Dict.get?_set] at hn
          by_cases e : a.1 = n
          · rw [if_pos e] at hn
            injection hn with hn
            subst hn
            exact near_fl hm h5 h5'
          · rw [if_neg e] at hn
            exact hl n l hn
        · rename_i before hb
          simp only at hn
          split at hn
          · exact hl n l hn
          · rename_i low hlow
            have hw' : watchedBy source a.1 = true := by
              simp only [watchedBy, Bool.or_eq_true, beq_iff_eq]
              by_cases h1 : source = none
              · exact .inl h1
              · exact .inr (Classical.not_not.1 fun h2 => hw ⟨h1, h2⟩)
            rw [hk.last _ hw'] at hb
            obtain ⟨pre, mid, h1, h2⟩ := lastOf_split history hb
            obtain ⟨g1, g2⟩ := ha pre a.1 before mid a.2 ms (by rw [h1]) h2
            have hn : (s.lowpass.set a.1 (smooth low (fl (a.2 - before)))).get? n = some l := by
              split at hn
              · split at hn <;> exact hn
              · exact hn
            rw [Dict.get?_set] at hn
            by_cases e : a.1 = n
            · rw [if_pos e] at hn
              injection hn with hn
              subst hn
              exact near_smooth hm (hl _ _ hlow) g1 g2
            · rw [if_neg e] at hn
              exact hl n l hn
    · intro x hx
      unfold handleFix2 at hx
      split at hx
      · exact ho x hx
      · rename_i hw
        split at hx
        · exact ho x hx
        · rename_i before hb
          simp only at hx
          split at hx
          · exact ho x hx
          · rename_i low hlow
            have hw' : watchedBy source a.1 = true := by
              simp only [watchedBy, Bool.or_eq_true, beq_iff_eq]
              by_cases h1 : source = none
              · exact .inl h1
              · exact .inr (Classical.not_not.1 fun h2 => hw ⟨h1, h2⟩)
            rw [hk.last _ hw'] at hb
            obtain ⟨pre, mid, h1, h2⟩ := lastOf_split history hb
            obtain ⟨g1, g2⟩ := ha pre a.1 before mid a.2 ms (by rw [h1]) h2
            split at hx
            · split at hx
              · exact ho x hx
              · rcases List.mem_append.1 hx with hx | hx
                · exact ho x hx
                · obtain rfl : x = _ := by simpa using hx
                  have := near_smooth hm (hl _ _ hlow) g1 g2
                  exact rate_bounds hm this.1 this.2
            · exact ho x hx

/-- **C153** (rates): if the messages of each node are between `m` and `M` seconds apart then every rate shown is between 1 / `M` and 1 / `m`, up to one
    part in 2^39. The average starts with a fifth of a second, which must be between them, too. -/
theorem C153_rates_partial {m M : Rat} (source : Option Int) (threshold : Rat) (hm : 0 < m) (h5 : m ≤ 1 / 5) (h5' : 1 / 5 ≤ M) (ms : List (Int × Rat))
    (hf : Forward ms) (ha : Apart m M ms) :
    ∀ x ∈ (gaps source threshold ms {}).out, 1 - 1 / 549755813888 ≤ x.2.2 * M ∧ x.2.2 * m ≤ 1 + 1 / 549755813888 :=
  gaps_rates source threshold hm h5 h5' ms [] {} ⟨fun n _ => rfl, (fun n t h => nomatch h)⟩ hf ha (fun n l h => nomatch h) (fun x h => nomatch h)

/-- It is enough to look at all pairs. -/
theorem apart_of_pairs {m M : Rat} {ms : List (Int × Rat)} (h : ms.Pairwise fun a b => a.1 = b.1 → m ≤ b.2 - a.2 ∧ b.2 - a.2 ≤ M) : Apart m M ms := by
  intro pre n t1 mid t2 post he _
  subst he
  rw [List.append_assoc] at h
  exact (List.pairwise_cons.1 (List.pairwise_append.1 h).2.1).1 (n, t2) (List.mem_append_right _ List.mem_cons_self) rfl

/-- A message every half second, and one of another node. -/
example : Apart (1 / 5) 1 [(7, 10), (8, 10), (7, 21 / 2), (7, 11)] := apart_of_pairs (by decide +kernel)

example : ((gaps none (1 / 4) [(7, 10), (7, 21 / 2), (7, 11)] {}).out.all fun x => 2 ≤ x.2.2 ∧ x.2.2 ≤ 5) = true ∧
    (gaps none (1 / 4) [(7, 10), (7, 21 / 2), (7, 11)] {}).out.length = 2 := by decide +kernel

/-- A clock that is set back by 640 seconds: the average may become zero, and a gap of 574 seconds is not printed. -/
theorem C153_counterexample : ¬ C153_statement := by
  intro h
  have := h none (1 / 4) [(7, 1000), (7, 1000 - 40967 / 64), (7, 1000 - 40967 / 64 + 631645721937838 / 1099511627776)]
  revert this
  decide +kernel

/-! ## Specification: the dump -/

/-- What the decoder makes of a stream: packets, each with its time, and bytes that leave it with nothing. -/
inductive Event where
  | packet (k : Key) (t : Rat)
  | lost

/-- What the decoder makes of the bytes. -/
def events {D : Type} (dec : Decoder D) : D → List (Byte × Rat) → List Event
  | _, [] => []
  | d, x :: rest =>
    (if (dec.read d x.1).2 = true then [.packet (dec.packetId (dec.read d x.1).1, dec.packetLen (dec.read d x.1).1) x.2]
      else if dec.pending (dec.read d x.1).1 = 0 then [.lost] else []) ++ events dec (dec.read d x.1).1 rest

/-- The packets, in order. -/
def packets : List Event → List Key
  | [] => []
  | .packet k _ :: es => k :: packets es
  | .lost :: es => packets es

/-- How many bytes were lost. -/
def losses : List Event → Nat
  | [] => 0
  | .packet _ _ :: es => losses es
  | .lost :: es => losses es + 1

/-- What the reports are about: there is one as soon as a packet comes two seconds after the last report. It is about the bytes lost up to then, and
    the packets since the last report. -/
def blocks (last : Rat) (lost : Nat) (since : List Key) : List Event → List (Nat × List Key)
  | [] => []
  | .lost :: es => blocks last (lost + 1) since es
  | .packet k t :: es =>
    if 2 ≤ fl (t - last) then (lost, since ++ [k]) :: blocks t lost [] es else blocks last lost (since ++ [k]) es

/-- The order of packets in a report. -/
def Before (a b : Key) : Prop := a.1 < b.1 ∨ (a.1 = b.1 ∧ a.2 < b.2)

/-- The total length of the packets with a count. -/
def totalOf : List (Key × Rat × Nat) → Nat
  | [] => 0
  | x :: xs => (if 0 < x.2.2 then x.1.2 else 0) + totalOf xs

/-- A report: the bytes lost; lines in order, with counts that are right, and a positive rate, which is as `R` says, just if there is a
    packet; the total length. There is a
    line for every kind of packet that came at least twice. -/
def Says (R : Rat → Prop) (b : Nat × List Key) (o : List Line) : Prop :=
  ∃ stats : List (Key × Rat × Nat), o = .lost b.1 :: stats.map (fun x => .stat x.1 x.2.1 x.2.2) ++ [.total (totalOf stats)] ∧
    (∀ x ∈ stats, x.2.2 = b.2.count x.1 ∧ (0 < x.2.2 ↔ 0 < x.2.1) ∧ (0 < x.2.2 → R x.2.1)) ∧ (∀ k, 2 ≤ b.2.count k → k ∈ stats.map (·.1)) ∧
    (stats.map (·.1)).Pairwise Before

/-- The reports, one for each block. -/
inductive Reports (R : Rat → Prop) : List (Nat × List Key) → List Line → Prop
  | nil : Reports R [] []
  | cons {b : Nat × List Key} {bs : List (Nat × List Key)} {o os : List Line} (h : Says R b o) (hs : Reports R bs os) :
      Reports R (b :: bs) (o ++ os)

/-- For the times between packets of a kind that follow each other. -/
def Within (G : Rat → Prop) (es : List Event) : Prop :=
  ∀ pre k t1 mid t2 post, es = pre ++ .packet k t1 :: mid ++ .packet k t2 :: post → (∀ t, .packet k t ∉ mid) → G (t2 - t1)

/-! ## The dump without statistics -/

theorem readBytes_plain {D : Type} (dec : Decoder D) (data : List (Byte × Rat)) : ∀ (s : Dump D) (after : List (Byte × Rat)),
    (readBytes dec false data s).1 = .ok () ∧ (readBytes dec false data s).2.file = s.file ∧
    ∃ es, events dec s.decoder (data ++ after) = es ++ events dec (readBytes dec false data s).2.decoder after ∧
      (readBytes dec false data s).2.out = s.out ++ (packets es).map .packet ∧ (readBytes dec false data s).2.lost = s.lost + losses es := by
  induction data with
  | nil => exact fun s after => ⟨rfl, rfl, [], rfl, (List.append_nil _).symm, rfl⟩
  | cons x data ih =>
    intro s after
    obtain ⟨b, now⟩ := x
    simp only [List.cons_append, events, readBytes, readByte]
    by_cases hc : (dec.read s.decoder b).2 = true
    · simp only [hc, if_true, Bool.false_eq_true, if_false]
      have hm : ∀ (k : Key) (s : Dump D), (measure k now s).file = s.file ∧ (measure k now s).decoder = s.decoder ∧ (measure k now s).out = s.out ∧
          (measure k now s).lost = s.lost := by
        intro k s
        simp only [measure]
        cases s.lastTime.get? k <;> exact ⟨rfl, rfl, rfl, rfl⟩
      generalize hk : (dec.packetId (dec.read s.decoder b).1, dec.packetLen (dec.read s.decoder b).1) = k
      obtain ⟨m1, m2, m3, m4⟩ := hm k (count k { s with decoder := (dec.read s.decoder b).1 })
      generalize measure k now (count k { s with decoder := (dec.read s.decoder b).1 }) = s1 at *
      obtain ⟨h1, h2, es, h3, h4, h5⟩ := ih { s1 with out := s1.out ++ [.packet k] } after
      refine ⟨h1, h2.trans m1, .packet k now :: es, ?_, ?_, ?_⟩
      · have e : events dec (dec.read s.decoder b).1 (data ++ after) = events dec s1.decoder (data ++ after) := by rw [m2]; rfl
        exact congrArg (Event.packet k now :: ·) (e.trans h3)
      · rw [h4]
        show (s1.out ++ [Line.packet k]) ++ _ = s.out ++ (Line.packet k :: _)
        rw [m3, List.append_assoc]
        rfl
      · rw [h5]
        show s1.lost + _ = s.lost + _
        rw [m4]
        rfl
    · simp only [hc, if_false]
      by_cases hp : dec.pending (dec.read s.decoder b).1 = 0
      · simp only [hp, if_true]
        obtain ⟨h1, h2, es, h3, h4, h5⟩ := ih { s with decoder := (dec.read s.decoder b).1, lost := s.lost + 1 } after
        refine ⟨h1, h2, .lost :: es, congrArg (Event.lost :: ·) h3, h4, h5.trans ?_⟩
        show s.lost + 1 + losses es = s.lost + (losses es + 1)
        omega
      · simp only [hp, if_false]
        obtain ⟨h1, h2, es, h3, h4, h5⟩ := ih { s with decoder := (dec.read s.decoder b).1 } after
        exact ⟨h1, h2, es, h3, h4, h5⟩

theorem dump_plain {D : Type} (dec : Decoder D) (ms : List (List (Byte × Rat))) : ∀ (s : Dump D),
    (dump dec false ms s).file = s.file ++ ms.flatten.map (·.1) ∧
    (dump dec false ms s).out = s.out ++ (packets (events dec s.decoder ms.flatten)).map .packet ∧
    (dump dec false ms s).lost = s.lost + losses (events dec s.decoder ms.flatten) := by
  have hpk : ∀ es fs, packets (es ++ fs) = packets es ++ packets fs := by
    intro es fs
    induction es with
    | nil => rfl
    | cons e es ih => cases e <;> simp [packets, ih]
  have hls : ∀ es fs, losses (es ++ fs) = losses es + losses fs := by
    intro es fs
    induction es with
    | nil => simp [losses]
    | cons e es ih => cases e <;> simp only [List.cons_append, losses, ih] <;> omega
  induction ms with
  | nil => intro s; simp [dump, events, packets, losses]
  | cons m ms ih =>
    intro s
    obtain ⟨h1, h2, es, h3, h4, h5⟩ := readBytes_plain dec m s ms.flatten
    simp only [dump, handleRtcm]
    generalize readBytes dec false m s = r at h1 h2 h3 h4 h5
    obtain ⟨o, s1⟩ := r
    obtain rfl : o = .ok () := h1
    simp only at h2 h3 h4 h5 ⊢
    obtain ⟨i1, i2, i3⟩ := ih { s1 with file := s1.file ++ m.map (·.1) }
    refine ⟨?_, ?_, ?_⟩
    · rw [i1, h2]; simp [List.append_assoc]
    · rw [i2, List.flatten_cons, h3, hpk, List.map_append]
      show s1.out ++ _ = _
      rw [h4, List.append_assoc]
    · rw [i3, List.flatten_cons, h3, hls]
      show s1.lost + losses (events dec s1.decoder ms.flatten) = _
      rw [h5]
      omega

/-- **C154** (without statistics): the data of all messages is written, in order, and every packet is printed. -/
theorem C154_plain {D : Type} (dec : Decoder D) (d : D) (ms : List (List (Byte × Rat))) :
    (dump dec false ms { decoder := d }).file = ms.flatten.map (·.1) ∧
    (dump dec false ms { decoder := d }).out = (packets (events dec d ms.flatten)).map .packet ∧
    (dump dec false ms { decoder := d }).lost = losses (events dec d ms.flatten) := by
  obtain ⟨h1, h2, h3⟩ := dump_plain dec ms { decoder := d }
  exact ⟨h1, h2, h3.trans (Nat.zero_add _)⟩

/-! ## The dump with statistics -/

theorem mem_insertKey (k k' : Key) (ks : List Key) : k' ∈ insertKey k ks ↔ k' = k ∨ k' ∈ ks := by
  induction ks with
  | nil => simp [insertKey]
  | cons a ks ih =>
    simp only [insertKey]
    split
    · simp
    · simp only [List.mem_cons, ih]
      constructor
      · rintro (h | h | h)
        · exact .inr (.inl h)
        · exact .inl h
        · exact .inr (.inr h)
      · rintro (h | h | h)
        · exact .inr (.inl h)
        · exact .inl h
        · exact .inr (.inr h)

theorem mem_sortKeys (k : Key) (ks : List Key) : k ∈ sortKeys ks ↔ k ∈ ks := by
  induction ks with
  | nil => rfl
  | cons a ks ih => simp only [sortKeys, mem_insertKey, ih, List.mem_cons]

theorem insertKey_sorted (k : Key) (ks : List Key) (hk : k ∉ ks) (h : ks.Pairwise Before) : (insertKey k ks).Pairwise Before := by
  induction ks with
  | nil => simp [insertKey]
  | cons a ks ih =>
    obtain ⟨h1, h2⟩ := List.pairwise_cons.1 h
    have hne : k ≠ a := fun e => hk (by rw [e]; exact List.mem_cons_self)
    have hne' : k.1 = a.1 → k.2 ≠ a.2 := fun e e' => hne (Prod.ext e e')
    simp only [insertKey]
    split
    · rename_i hc
      have hb : Before k a := by
        simp only [Before]
        rcases hc with hc | ⟨hc, hc'⟩
        · exact .inl hc
        · exact .inr ⟨hc, by have := hne' hc; omega⟩
      refine List.pairwise_cons.2 ⟨?_, h⟩
      intro b hb'
      rcases List.mem_cons.1 hb' with rfl | hb'
      · exact hb
      · have := h1 b hb'
        simp only [Before] at this hb ⊢
        omega
    · rename_i hc
      refine List.pairwise_cons.2 ⟨?_, ih (fun hm => hk (List.mem_cons_of_mem _ hm)) h2⟩
      intro b hb
      rcases (mem_insertKey k b ks).1 hb with rfl | hb
      · simp only [Before]
        omega
      · exact h1 b hb

theorem sortKeys_sorted (ks : List Key) (h : ks.Nodup) : (sortKeys ks).Pairwise Before := by
  induction ks with
  | nil => exact .nil
  | cons a ks ih =>
    obtain ⟨h1, h2⟩ := List.nodup_cons.1 h
    exact insertKey_sorted a _ (fun hm => h1 ((mem_sortKeys a ks).1 hm)) (ih h2)

theorem sorted_nodup {ks : List Key} (h : ks.Pairwise Before) : ks.Nodup :=
  h.imp (fun {a b} hb e => by subst e; simp only [Before] at hb; omega)

theorem report_spec {D : Type} {P R : Rat → Prop} (hR : ∀ d, 0 < d → P d → R (fl (1 / d))) (c : Key → Nat) (ks : List Key) : ∀ (total : Nat) (s : Dump D), ks.Nodup →
    (∀ k ∈ ks, s.counts.get? k = if c k = 0 then none else some (c k)) → (∀ k ∈ ks, ∃ d, s.deltas.get? k = some d ∧ 0 < d ∧ P d) →
    ∃ (stats : List (Key × Rat × Nat)) (counts : Dict Key Nat), stats.map (·.1) = ks ∧
      report ks total s = (.ok (total + totalOf stats), { s with counts := counts, out := s.out ++ stats.map (fun x => .stat x.1 x.2.1 x.2.2) }) ∧
      (∀ x ∈ stats, x.2.2 = c x.1 ∧ (0 < x.2.2 ↔ 0 < x.2.1) ∧ (0 < x.2.2 → R x.2.1)) ∧ (∀ k ∈ ks, counts.get? k = some (c k)) ∧
      (∀ k, k ∉ ks → counts.get? k = s.counts.get? k) := by
  induction ks with
  | nil => intro total s _ _ _; exact ⟨[], s.counts, rfl, by simp [report, totalOf], (fun x hx => nomatch hx), (fun x hx => nomatch hx), fun _ _ => rfl⟩
  | cons k ks ih =>
    intro total s hn hc hd
    obtain ⟨hk, hn⟩ := List.nodup_cons.1 hn
    have hck := hc k List.mem_cons_self
    obtain ⟨d, hdk, hpos, hP⟩ := hd k List.mem_cons_self
    simp only [report]
    by_cases h0 : c k = 0
    · rw [if_pos h0] at hck
      simp only [hck]
      obtain ⟨stats, counts, h1, h2, h3, h4, h5⟩ := ih total { s with counts := s.counts.set k 0, out := s.out ++ [.stat k 0 0] } hn
        (fun k' hk' => by
          show (s.counts.set k 0).get? k' = _
          rw [Dict.get?_set_ne _ _ (by rintro rfl; exact hk hk')]
          exact hc k' (List.mem_cons_of_mem _ hk'))
        (fun k' hk' => hd k' (List.mem_cons_of_mem _ hk'))
      refine ⟨(k, 0, 0) :: stats, counts, by rw [List.map_cons, h1], ?_, ?_, ?_, ?_⟩
      · rw [h2]
        simp [totalOf, List.append_assoc]
      · intro x hx
        rcases List.mem_cons.1 hx with rfl | hx
        · exact ⟨h0.symm, by simp, fun h => absurd h (by simp)⟩
        · exact h3 x hx
      · intro k' hk'
        rcases List.mem_cons.1 hk' with rfl | hk'
        · rw [h5 _ hk, h0]
          exact Dict.get?_set_self _ _ _
        · exact h4 k' hk'
      · intro k' hk'
        obtain ⟨n1, n2⟩ := not_or.1 (fun hh => hk' (List.mem_cons.2 hh))
        rw [h5 k' n2]
        exact Dict.get?_set_ne _ _ (Ne.symm n1)
    · rw [if_neg h0] at hck
      simp only [hck, hdk, if_neg (Rat.ne_of_gt hpos)]
      have hcp : 0 < c k := Nat.pos_of_ne_zero h0
      simp only [if_pos hcp]
      obtain ⟨stats, counts, h1, h2, h3, h4, h5⟩ := ih (total + k.2) { s with out := s.out ++ [.stat k (fl (1 / d)) (c k)] } hn
        (fun k' hk' => hc k' (List.mem_cons_of_mem _ hk')) (fun k' hk' => hd k' (List.mem_cons_of_mem _ hk'))
      refine ⟨(k, fl (1 / d), c k) :: stats, counts, by rw [List.map_cons, h1], ?_, ?_, ?_, ?_⟩
      · rw [h2]
        simp [totalOf, List.append_assoc, hcp, Nat.add_assoc]
      · intro x hx
        rcases List.mem_cons.1 hx with rfl | hx
        · exact ⟨rfl, ⟨fun _ => fl_pos (by rw [Rat.div_def, Rat.one_mul]; exact Rat.inv_pos.2 hpos), fun _ => hcp⟩, fun _ => hR d hpos hP⟩
        · exact h3 x hx
      · intro k' hk'
        rcases List.mem_cons.1 hk' with rfl | hk'
        · rw [h5 _ hk]
          exact hck
        · exact h4 k' hk'
      · intro k' hk'
        exact h5 k' (fun hh => hk' (List.mem_cons_of_mem _ hh))

theorem forget_spec {D : Type} (ks : List Key) : ∀ (s : Dump D), ks.Nodup → Dict.Ok s.deltas → Dict.Ok s.lastTime →
    (∀ k ∈ ks, ∃ c, s.counts.get? k = some c) → (∀ k ∈ ks, ∃ t, s.lastTime.get? k = some t) →
    ∃ deltas lastTime, forget ks s = (.ok (), { s with deltas := deltas, lastTime := lastTime }) ∧ Dict.Ok deltas ∧ Dict.Ok lastTime ∧
      (∀ k, deltas.get? k = if k ∈ ks ∧ s.counts.get? k = some 0 then none else s.deltas.get? k) ∧
      (∀ k, lastTime.get? k = if k ∈ ks ∧ s.counts.get? k = some 0 then none else s.lastTime.get? k) := by
  induction ks with
  | nil => intro s _ h1 h2 _ _; exact ⟨s.deltas, s.lastTime, rfl, h1, h2, by simp, by simp⟩
  | cons k ks ih =>
    intro s hn o1 o2 hc ht
    obtain ⟨hk, hn⟩ := List.nodup_cons.1 hn
    obtain ⟨c, hck⟩ := hc k List.mem_cons_self
    obtain ⟨t, htk⟩ := ht k List.mem_cons_self
    simp only [forget, hck]
    by_cases h0 : c = 0
    · subst h0
      simp only [if_true, Dict.contains, htk, Option.isSome_some]
      obtain ⟨de, la, h1, h2, h3, h4, h5⟩ := ih { s with deltas := s.deltas.del k, lastTime := s.lastTime.del k } hn (Dict.ok_del o1 k) (Dict.ok_del o2 k)
        (fun k' hk' => hc k' (List.mem_cons_of_mem _ hk'))
        (fun k' hk' => by
          show ∃ t, (s.lastTime.del k).get? k' = some t
          rw [Dict.get?_del_ne _ (by rintro rfl; exact hk hk')]
          exact ht k' (List.mem_cons_of_mem _ hk'))
      refine ⟨de, la, h1, h2, h3, ?_, ?_⟩
      · intro k'
        rw [h4]
        show (if k' ∈ ks ∧ s.counts.get? k' = some 0 then none else (s.deltas.del k).get? k') = _
        rw [Dict.get?_del o1]
        by_cases e : k = k'
        · subst e; simp [hck]
        · simp only [e, if_false, List.mem_cons, Ne.symm e, false_or]
      · intro k'
        rw [h5]
        show (if k' ∈ ks ∧ s.counts.get? k' = some 0 then none else (s.lastTime.del k).get? k') = _
        rw [Dict.get?_del o2]
        by_cases e : k = k'
        · subst e; simp [hck]
        · simp only [e, if_false, List.mem_cons, Ne.symm e, false_or]
    · simp only [h0, if_false]
      obtain ⟨de, la, h1, h2, h3, h4, h5⟩ := ih s hn o1 o2 (fun k' hk' => hc k' (List.mem_cons_of_mem _ hk')) (fun k' hk' => ht k' (List.mem_cons_of_mem _ hk'))
      refine ⟨de, la, h1, h2, h3, ?_, ?_⟩
      · intro k'
        rw [h4]
        by_cases e : k = k'
        · subst e; simp [hck, h0]
        · simp only [List.mem_cons, Ne.symm e, false_or]
      · intro k'
        rw [h5]
        by_cases e : k = k'
        · subst e; simp [hck, h0]
        · simp only [List.mem_cons, Ne.symm e, false_or]

/-- What holds between bytes: `since` are the packets since the last report, and the times to come are later than those known.
`es` are the events to come. -/
structure Inv {D : Type} (G P : Rat → Prop) (since : List Key) (future : List (Byte × Rat)) (es : List Event) (s : Dump D) : Prop where
  okD : Dict.Ok s.deltas
  okL : Dict.Ok s.lastTime
  deltas : ∀ k d, s.deltas.get? k = some d → 0 < d ∧ ∃ t, s.lastTime.get? k = some t
  avg : ∀ k d, s.deltas.get? k = some d → P d
  gap : ∀ k t, s.lastTime.get? k = some t → ∀ mid t2 post, es = mid ++ .packet k t2 :: post → (∀ t', .packet k t' ∉ mid) → G (t2 - t)
  within : Within G es
  times : ∀ k t, s.lastTime.get? k = some t → ∀ x ∈ future, t < x.2
  counts : ∀ k, s.counts.get? k = if since.count k = 0 then none else some (since.count k)
  once : ∀ k, 1 ≤ since.count k → ∃ t, s.lastTime.get? k = some t
  twice : ∀ k, 2 ≤ since.count k → ∃ d, s.deltas.get? k = some d

/-- What is needed of the averages. -/
structure Avg (G P : Rat → Prop) : Prop where
  first : ∀ q, 0 < q → G q → P (fl q)
  next : ∀ d q, 0 < d → P d → 0 < q → G q → P (smooth d (fl q))

theorem within_tail {G : Rat → Prop} {e : Event} {es : List Event} (h : Within G (e :: es)) : Within G es :=
  fun pre k t1 mid t2 post he hm => h (e :: pre) k t1 mid t2 post (by rw [he]; rfl) hm

theorem gap_step {G P : Rat → Prop} {D : Type} {since : List Key} {x : Byte × Rat} {future : List (Byte × Rat)} {es : List Event} {s : Dump D} {k : Key}
    (h : Inv G P since (x :: future) (.packet k x.2 :: es) s) (k' : Key) (t : Rat) (ht : (s.lastTime.set k x.2).get? k' = some t) (mid : List Event)
    (t2 : Rat) (post : List Event) (he : es = mid ++ .packet k' t2 :: post) (hm : ∀ t', .packet k' t' ∉ mid) : G (t2 - t) := by
  rw [Dict.get?_set] at ht
  by_cases e : k = k'
  · rw [if_pos e] at ht
    injection ht with ht
    subst ht e
    exact h.within [] k x.2 mid t2 post (by rw [he]; rfl) hm
  · rw [if_neg e] at ht
    refine h.gap k' t ht (.packet k x.2 :: mid) t2 post (by rw [he]; rfl) ?_
    intro t' hm'
    rcases List.mem_cons.1 hm' with hm' | hm'
    · injection hm' with h1 h2
      exact e h1.symm
    · exact hm t' hm'

theorem measure_inv {G P : Rat → Prop} (hA : Avg G P) {D : Type} {since : List Key} {x : Byte × Rat} {future : List (Byte × Rat)} {es : List Event}
    {s : Dump D} {k : Key} (h : Inv G P since (x :: future) (.packet k x.2 :: es) s)
    (hf : ∀ y ∈ future, x.2 < y.2) : Inv G P (since ++ [k]) future es (measure k x.2 (count k s)) := by
  have hcount : ∀ k', (since ++ [k]).count k' = since.count k' + if k = k' then 1 else 0 := by
    intro k'
    rw [List.count_append, List.count_singleton]
    simp only [beq_iff_eq]
  have hcs : ∀ k', (s.counts.set k ((s.counts.get? k).getD 0 + 1)).get? k' =
      if (since ++ [k]).count k' = 0 then none else some ((since ++ [k]).count k') := by
    intro k'
    rw [Dict.get?_set, hcount]
    by_cases e : k = k'
    · subst e
      simp only [if_true, h.counts]
      by_cases h0 : since.count k = 0
      · simp [h0]
      · simp [h0]
    · simp only [e, if_false, Nat.add_zero]
      exact h.counts k'
  simp only [measure]
  cases hl : (count k s).lastTime.get? k with
  | none =>
    have hl : s.lastTime.get? k = none := hl
    refine ⟨h.okD, Dict.ok_set h.okL _ _, ?_, h.avg, gap_step (s := s) h, within_tail h.within, ?_, hcs, ?_, ?_⟩
    · intro k' d hd
      obtain ⟨h1, t, h2⟩ := h.deltas k' d hd
      refine ⟨h1, t, ?_⟩
      show (s.lastTime.set k x.2).get? k' = some t
      rw [Dict.get?_set_ne]
      · exact h2
      · rintro rfl
        rw [hl] at h2
        cases h2
    · intro k' t ht y hy
      have ht : (s.lastTime.set k x.2).get? k' = some t := ht
      rw [Dict.get?_set] at ht
      by_cases e : k = k'
      · rw [if_pos e] at ht
        cases ht
        exact hf y hy
      · rw [if_neg e] at ht
        exact h.times k' t ht y (List.mem_cons_of_mem _ hy)
    · intro k' hk'
      show ∃ t, (s.lastTime.set k x.2).get? k' = some t
      rw [Dict.get?_set]
      by_cases e : k = k'
      · exact ⟨_, if_pos e⟩
      · rw [if_neg e]
        rw [hcount, if_neg e] at hk'
        exact h.once k' hk'
    · intro k' hk'
      rw [hcount] at hk'
      by_cases e : k = k'
      · subst e
        rw [if_pos rfl] at hk'
        obtain ⟨t, ht⟩ := h.once k (by omega)
        rw [hl] at ht
        cases ht
      · rw [if_neg e] at hk'
        exact h.twice k' hk'
  | some before =>
    have hl : s.lastTime.get? k = some before := hl
    have hq : 0 < x.2 - before := by have := h.times k before hl x List.mem_cons_self; grind
    have hG : G (x.2 - before) := h.gap k before hl [] x.2 es rfl (fun t ht => nomatch ht)
    have hdt : 0 < fl (x.2 - before) := fl_pos hq
    have hd0 : 0 < (match (count k s).deltas.get? k with | none => fl (x.2 - before) | some d => smooth d (fl (x.2 - before))) := by
      cases hd : (count k s).deltas.get? k with
      | none => exact hdt
      | some d => exact smooth_pos (h.deltas k d hd).1 (Rat.le_of_lt hdt)
    have hP0 : P (match (count k s).deltas.get? k with | none => fl (x.2 - before) | some d => smooth d (fl (x.2 - before))) := by
      cases hd : (count k s).deltas.get? k with
      | none => exact hA.first _ hq hG
      | some d => exact hA.next _ _ (h.deltas k d hd).1 (h.avg k d hd) hq hG
    suffices key : ∀ d0, 0 < d0 → P d0 → Inv G P (since ++ [k]) future es
        { count k s with lastTime := (count k s).lastTime.set k x.2, deltas := (count k s).deltas.set k d0 } by
      exact key _ hd0 hP0
    intro d0 hd0 hP0
    refine ⟨Dict.ok_set h.okD _ _, Dict.ok_set h.okL _ _, ?_, ?_, gap_step (s := s) h, within_tail h.within, ?_, hcs, ?_, ?_⟩
    · intro k' d hd
      have hd : (s.deltas.set k d0).get? k' = some d := hd
      show 0 < d ∧ ∃ t, (s.lastTime.set k x.2).get? k' = some t
      rw [Dict.get?_set] at hd ⊢
      by_cases e : k = k'
      · rw [if_pos e] at hd ⊢
        cases hd
        exact ⟨hd0, _, rfl⟩
      · rw [if_neg e] at hd ⊢
        exact h.deltas k' d hd
    · intro k' d hd
      have hd : (s.deltas.set k d0).get? k' = some d := hd
      rw [Dict.get?_set] at hd
      by_cases e : k = k'
      · rw [if_pos e] at hd
        cases hd
        exact hP0
      · rw [if_neg e] at hd
        exact h.avg k' d hd
    · intro k' t ht y hy
      have ht : (s.lastTime.set k x.2).get? k' = some t := ht
      rw [Dict.get?_set] at ht
      by_cases e : k = k'
      · rw [if_pos e] at ht
        cases ht
        exact hf y hy
      · rw [if_neg e] at ht
        exact h.times k' t ht y (List.mem_cons_of_mem _ hy)
    · intro k' hk'
      show ∃ t, (s.lastTime.set k x.2).get? k' = some t
      rw [Dict.get?_set]
      by_cases e : k = k'
      · exact ⟨_, if_pos e⟩
      · rw [if_neg e]
        rw [hcount, if_neg e] at hk'
        exact h.once k' hk'
    · intro k' hk'
      show ∃ d, (s.deltas.set k d0).get? k' = some d
      rw [Dict.get?_set]
      by_cases e : k = k'
      · exact ⟨_, if_pos e⟩
      · rw [if_neg e]
        rw [hcount, if_neg e] at hk'
        exact h.twice k' hk'

theorem statistics_inv {G P R : Rat → Prop} (hR : ∀ d, 0 < d → P d → R (fl (1 / d))) {D : Type} {since : List Key} {future : List (Byte × Rat)}
    {es : List Event} {s : Dump D} (h : Inv G P since future es s) (now : Rat)
    (hdue : 2 ≤ fl (now - s.lastStats)) :
    ∃ s' o, statistics now s = (.ok (), s') ∧ Inv G P [] future es s' ∧ s'.out = s.out ++ o ∧ Says R (s.lost, since) o ∧ s'.lastStats = now ∧
      s'.lost = s.lost ∧ s'.decoder = s.decoder ∧ s'.file = s.file := by
  have hn : ¬ fl (now - s.lastStats) < 2 := by grind
  simp only [statistics, if_neg hn]
  have hsorted := sortKeys_sorted s.deltas.keys h.okD
  have hmem : ∀ k, k ∈ sortKeys s.deltas.keys ↔ ∃ d, s.deltas.get? k = some d := by
    intro k
    rw [mem_sortKeys, Dict.mem_keys_iff, Option.isSome_iff_exists]
  obtain ⟨stats, counts, h1, h2, h3, h4, h5⟩ := report_spec hR since.count (sortKeys s.deltas.keys) 0
    { s with lastStats := now, out := s.out ++ [.lost s.lost] } (sorted_nodup hsorted) (fun k _ => h.counts k)
    (fun k hk => by
      obtain ⟨d, hd⟩ := (hmem k).1 hk
      exact ⟨d, hd, (h.deltas k d hd).1, h.avg k d hd⟩)
  simp only [h2]
  obtain ⟨de, la, f1, f2, f3, f4, f5⟩ := forget_spec (sortKeys s.deltas.keys)
    { s with lastStats := now, counts := counts, out := ((s.out ++ [.lost s.lost]) ++ stats.map (fun x => .stat x.1 x.2.1 x.2.2)) ++ [.total (0 + totalOf stats)] }
    (sorted_nodup hsorted) h.okD h.okL (fun k hk => ⟨_, h4 k hk⟩)
    (fun k hk => by
      obtain ⟨d, hd⟩ := (hmem k).1 hk
      exact (h.deltas k d hd).2)
  simp only [f1]
  refine ⟨_, _, rfl, ⟨f2, f3, ?_, ?_, ?_, h.within, ?_, fun k => rfl, fun k hk => absurd hk (by simp), fun k hk => absurd hk (by simp)⟩, ?_, ⟨stats, rfl, h3, ?_, ?_⟩, rfl, rfl, rfl,
    rfl⟩
  · intro k d hd
    have hd : de.get? k = some d := hd
    show 0 < d ∧ ∃ t, la.get? k = some t
    rw [f4] at hd
    rw [f5]
    split at hd
    · cases hd
    · rename_i hc
      rw [if_neg hc]
      exact h.deltas k d hd
  · intro k d hd
    have hd : de.get? k = some d := hd
    rw [f4] at hd
    split at hd
    · cases hd
    · exact h.avg k d hd
  · intro k t ht
    have ht : la.get? k = some t := ht
    rw [f5] at ht
    split at ht
    · cases ht
    · exact h.gap k t ht
  · intro k t ht
    have ht : la.get? k = some t := ht
    rw [f5] at ht
    split at ht
    · cases ht
    · exact h.times k t ht
  · simp only [Nat.zero_add, List.append_assoc, List.singleton_append, List.cons_append, List.nil_append]
  · intro k hk
    rw [h1]
    exact (hmem k).2 (h.twice k hk)
  · rw [h1]
    exact hsorted

theorem readBytes_stats {G P R : Rat → Prop} (hA : Avg G P) (hR : ∀ d, 0 < d → P d → R (fl (1 / d))) {D : Type} (dec : Decoder D) (data : List (Byte × Rat)) : ∀ (s : Dump D) (since : List Key) (after : List (Byte × Rat)),
    Inv G P since (data ++ after) (events dec s.decoder (data ++ after)) s → (data ++ after).Pairwise (fun a b => a.2 < b.2) →
    ∃ s' since' bs os, readBytes dec true data s = (.ok (), s') ∧ s'.file = s.file ∧ Inv G P since' after (events dec s'.decoder after) s' ∧
      s'.out = s.out ++ os ∧ Reports R bs os ∧
      blocks s.lastStats s.lost since (events dec s.decoder (data ++ after)) = bs ++ blocks s'.lastStats s'.lost since' (events dec s'.decoder after) := by
  induction data with
  | nil => exact fun s since after h _ => ⟨s, since, [], [], rfl, rfl, h, (List.append_nil _).symm, .nil, rfl⟩
  | cons x data ih =>
    intro s since after h hp
    obtain ⟨b, now⟩ := x
    obtain ⟨hp1, hp2⟩ := List.pairwise_cons.1 hp
    simp only [List.cons_append, events, readBytes, readByte] at h ⊢
    by_cases hc : (dec.read s.decoder b).2 = true
    · simp only [hc, if_true] at h ⊢
      generalize hk : (dec.packetId (dec.read s.decoder b).1, dec.packetLen (dec.read s.decoder b).1) = k at h
      have hm : ∀ (k : Key) (s : Dump D), (measure k now s).file = s.file ∧ (measure k now s).decoder = s.decoder ∧ (measure k now s).out = s.out ∧
          (measure k now s).lost = s.lost ∧ (measure k now s).lastStats = s.lastStats := by
        intro k s
        simp only [measure]
        cases s.lastTime.get? k <;> exact ⟨rfl, rfl, rfl, rfl, rfl⟩
      have hi : Inv G P (since ++ [k]) (data ++ after) (events dec (dec.read s.decoder b).1 (data ++ after)) (measure k now (count k { s with decoder := (dec.read s.decoder b).1 })) :=
        measure_inv hA (x := (b, now)) (s := { s with decoder := (dec.read s.decoder b).1 })
          ⟨h.okD, h.okL, h.deltas, h.avg, h.gap, h.within, h.times, h.counts, h.once, h.twice⟩ hp1
      obtain ⟨m1, m2, m3, m4, m5⟩ := hm k (count k { s with decoder := (dec.read s.decoder b).1 })
      have m1 : _ = s.file := m1
      have m2 : _ = (dec.read s.decoder b).1 := m2
      have m3 : _ = s.out := m3
      have m4 : _ = s.lost := m4
      have m5 : _ = s.lastStats := m5
      generalize measure k now (count k { s with decoder := (dec.read s.decoder b).1 }) = s1 at *
      simp only [List.singleton_append, blocks]
      by_cases hdue : 2 ≤ fl (now - s.lastStats)
      · obtain ⟨s2, o, q1, q2, q3, q4, q5, q6, q7, q8⟩ := statistics_inv hR hi now (by rw [m5]; exact hdue)
        simp only [q1, if_pos hdue]
        obtain ⟨s', since', bs, os, r1, r2, r3, r4, r5, r6⟩ := ih s2 [] after (by rw [q7, m2]; exact q2) hp2
        refine ⟨s', since', (s.lost, since ++ [k]) :: bs, o ++ os, r1, ?_, r3, ?_, .cons (m4 ▸ q4) r5, ?_⟩
        · rw [r2, q8, m1]
        · rw [r4, q3, m3, List.append_assoc]
        · rw [q5, q6, m4, q7, m2] at r6
          rw [r6]
          rfl
      · have hlt : fl (now - s1.lastStats) < 2 := by rw [m5]; grind
        simp only [statistics, if_pos hlt, if_neg hdue]
        obtain ⟨s', since', bs, os, r1, r2, r3, r4, r5, r6⟩ := ih s1 _ after (by rw [m2]; exact hi) hp2
        rw [m5, m4, m2] at r6
        exact ⟨s', since', bs, os, r1, r2.trans m1, r3, m3 ▸ r4, r5, r6⟩
    · simp only [hc, if_false] at h ⊢
      by_cases hz : dec.pending (dec.read s.decoder b).1 = 0
      · simp only [hz, if_true] at h ⊢
        obtain ⟨s', since', bs, os, r1, r2, r3, r4, r5, r6⟩ := ih { s with decoder := (dec.read s.decoder b).1, lost := s.lost + 1 } since after
          ⟨h.okD, h.okL, h.deltas, h.avg, fun k t ht mid t2 post he hm => h.gap k t ht (.lost :: mid) t2 post (congrArg (Event.lost :: ·) he)
              (fun t' hm' => hm t' ((List.mem_cons.1 hm').resolve_left (fun h => nomatch h))),
            within_tail h.within, fun k t ht y hy => h.times k t ht y (List.mem_cons_of_mem _ hy), h.counts, h.once, h.twice⟩ hp2
        exact ⟨s', since', bs, os, r1, r2, r3, r4, r5, r6⟩
      · simp only [hz, if_false, List.nil_append] at h ⊢
        obtain ⟨s', since', bs, os, r1, r2, r3, r4, r5, r6⟩ := ih { s with decoder := (dec.read s.decoder b).1 } since after
          ⟨h.okD, h.okL, h.deltas, h.avg, h.gap, h.within, fun k t ht y hy => h.times k t ht y (List.mem_cons_of_mem _ hy), h.counts, h.once, h.twice⟩ hp2
        exact ⟨s', since', bs, os, r1, r2, r3, r4, r5, r6⟩

theorem Reports.append {R : Rat → Prop} {bs bs' : List (Nat × List Key)} {os os' : List Line} (h : Reports R bs os) (h' : Reports R bs' os') :
    Reports R (bs ++ bs') (os ++ os') := by
  induction h with
  | nil => exact h'
  | cons h hs ih => rw [List.append_assoc]; exact .cons h ih

theorem dump_stats {G P R : Rat → Prop} (hA : Avg G P) (hR : ∀ d, 0 < d → P d → R (fl (1 / d))) {D : Type} (dec : Decoder D) (ms : List (List (Byte × Rat))) : ∀ (s : Dump D) (since : List Key),
    Inv G P since ms.flatten (events dec s.decoder ms.flatten) s → ms.flatten.Pairwise (fun a b => a.2 < b.2) →
    (dump dec true ms s).file = s.file ++ ms.flatten.map (·.1) ∧
    ∃ os, (dump dec true ms s).out = s.out ++ os ∧ Reports R (blocks s.lastStats s.lost since (events dec s.decoder ms.flatten)) os := by
  induction ms with
  | nil => exact fun s since _ _ => ⟨(List.append_nil _).symm, [], (List.append_nil _).symm, .nil⟩
  | cons m ms ih =>
    intro s since h hp
    rw [List.flatten_cons] at h hp
    obtain ⟨s', since', bs, os, r1, r2, r3, r4, r5, r6⟩ := readBytes_stats hA hR dec m s since ms.flatten h hp
    obtain ⟨i1, os', i2, i3⟩ := ih { s' with file := s'.file ++ m.map (·.1) } since'
      ⟨r3.okD, r3.okL, r3.deltas, r3.avg, r3.gap, r3.within, r3.times, r3.counts, r3.once, r3.twice⟩ (List.pairwise_append.1 hp).2.1
    simp only [dump, handleRtcm, r1]
    refine ⟨?_, os ++ os', ?_, ?_⟩
    · rw [i1, r2, List.flatten_cons, List.map_append, List.append_assoc]
    · rw [i2]
      show s'.out ++ os' = _
      rw [r4, List.append_assoc]
    · rw [List.flatten_cons, r6]
      exact r5.append i3

theorem dump_reports {G P R : Rat → Prop} (hA : Avg G P) (hR : ∀ d, 0 < d → P d → R (fl (1 / d))) {D : Type} (dec : Decoder D) (d : D)
    (ms : List (List (Byte × Rat))) (h : ms.flatten.Pairwise (fun a b => a.2 < b.2)) (hw : Within G (events dec d ms.flatten)) :
    (dump dec true ms { decoder := d }).file = ms.flatten.map (·.1) ∧
    Reports R (blocks 0 0 [] (events dec d ms.flatten)) (dump dec true ms { decoder := d }).out := by
  obtain ⟨h1, os, h2, h3⟩ := dump_stats hA hR dec ms { decoder := d } []
    ⟨Dict.ok_nil, Dict.ok_nil, (fun k d h => nomatch h), (fun k d h => nomatch h), (fun k t h => nomatch h), hw, (fun k t h => nomatch h), fun k => rfl,
      fun k hk => absurd hk (by simp), fun k hk => absurd hk (by simp)⟩ h
  refine ⟨h1, ?_⟩
  rw [h2]
  exact h3

/-- **C154** (with statistics): if the clock has moved on at every packet, the data of all messages is written, in order, and there are reports as they
    are due, each with the right counts. -/
theorem C154_stats_partial {D : Type} (dec : Decoder D) (d : D) (ms : List (List (Byte × Rat))) (h : ms.flatten.Pairwise (fun a b => a.2 < b.2)) :
    (dump dec true ms { decoder := d }).file = ms.flatten.map (·.1) ∧
    Reports (fun _ => True) (blocks 0 0 [] (events dec d ms.flatten)) (dump dec true ms { decoder := d }).out :=
  dump_reports (G := fun _ => True) (P := fun _ => True) ⟨fun _ _ _ => trivial, fun _ _ _ _ _ _ => trivial⟩ (fun _ _ _ => trivial) dec d ms h
    (fun _ _ _ _ _ _ _ _ => trivial)

/-- **C154** (rates): if moreover packets of a kind follow each other after at least `m` and at most `M` seconds then the rates in the reports are between
    1 / `M` and 1 / `m`, up to one part in 2^39. -/
theorem C154_rates_partial {D : Type} (dec : Decoder D) (d : D) (ms : List (List (Byte × Rat))) (h : ms.flatten.Pairwise (fun a b => a.2 < b.2))
    {m M : Rat} (hm : 0 < m) (hw : Within (fun q => m ≤ q ∧ q ≤ M) (events dec d ms.flatten)) :
    Reports (fun r => 1 - 1 / 549755813888 ≤ r * M ∧ r * m ≤ 1 + 1 / 549755813888) (blocks 0 0 [] (events dec d ms.flatten))
      (dump dec true ms { decoder := d }).out :=
  (dump_reports (G := fun q => m ≤ q ∧ q ≤ M) (P := Near m M) ⟨fun _ _ h => near_fl hm h.1 h.2, fun _ _ _ hd _ h => near_smooth hm hd h.1 h.2⟩
    (fun _ _ hp => rate_bounds hm hp.1 hp.2) dec d ms h hw).2

/-- A decoder for which every byte is a packet. -/
def eachByte : Decoder Nat := { read := fun _ b => (b.toNat, true), packetId := fun d => d, packetLen := fun _ => 1, pending := fun _ => 0 }

/-- Packets of kind 5 and one of kind 6. The second report counts two of kind 5. -/
example : [[(5, 10), (5, 21 / 2)], [(6, 11), (5, 12)]].flatten.Pairwise (fun (a b : Byte × Rat) => a.2 < b.2) ∧
    blocks 0 0 [] (events eachByte 0 [[(5, 10), (5, 21 / 2)], [(6, 11), (5, 12)]].flatten) = [(0, [(5, 1)]), (0, [(5, 1), (6, 1), (5, 1)])] ∧
    (dump eachByte true [[(5, 10), (5, 21 / 2)], [(6, 11), (5, 12)]] { decoder := 0 }).out =
      [.lost 0, .total 0, .lost 0, .stat (5, 1) (fl (1 / smooth (1 / 2) (3 / 2))) 2, .total 1] := by
  refine ⟨?_, ?_, ?_⟩ <;> decide +kernel

/-- It is enough to look at all pairs. -/
theorem within_of_pairs {G : Rat → Prop} {es : List Event}
    (h : es.Pairwise fun a b => ∀ k t1 t2, a = .packet k t1 → b = .packet k t2 → G (t2 - t1)) : Within G es := by
  intro pre k t1 mid t2 post he _
  subst he
  rw [List.append_assoc] at h
  exact (List.pairwise_cons.1 (List.pairwise_append.1 h).2.1).1 _ (List.mem_append_right _ List.mem_cons_self) k t1 t2 rfl rfl

/-- In the example above the times between packets of a kind are at least half a second and at most two. -/
example : Within (fun q => 1 / 2 ≤ q ∧ q ≤ 2) (events eachByte 0 [[(5, 10), (5, 21 / 2)], [(6, 11), (5, 12)]].flatten) := by
  have : events eachByte 0 [[(5, 10), (5, 21 / 2)], [(6, 11), (5, 12)]].flatten =
      [.packet (5, 1) 10, .packet (5, 1) (21 / 2), .packet (6, 1) 11, .packet (5, 1) 12] := rfl
  rw [this]
  apply within_of_pairs
  clear this
  simp only [List.pairwise_cons, List.mem_cons, List.not_mem_nil, or_false, forall_eq_or_imp, forall_eq, Event.packet.injEq]
  refine ⟨⟨?_, ?_, ?_⟩, ⟨?_, ?_⟩, ?_, ?_, .nil⟩
  all_goals
    intros
    grind

/-- The claim for the file, with a clock that need not move between two packets. -/
def C154_file_statement : Prop :=
  ∀ (ms : List (List (Byte × Rat))), ms.flatten.Pairwise (fun a b => a.2 ≤ b.2) → (dump eachByte true ms { decoder := 0 }).file = ms.flatten.map (·.1)

/-- Two packets of a kind at one time: the next report divides by zero, and the data of that message is not written. -/
theorem C154_file_counterexample : ¬ C154_file_statement := by
  intro h
  have := h [[(5, 10), (5, 10)], [(6, 13)]] (by decide +kernel)
  revert this
  decide +kernel

/-- The claim for the statistics: every packet is in the report that is due after it. -/
def C154_counted_statement : Prop :=
  ∀ (ms : List (List (Byte × Rat))), ms.flatten.Pairwise (fun a b => a.2 < b.2) →
    ∀ b ∈ blocks 0 0 [] (events eachByte 0 ms.flatten), ∀ k ∈ b.2, ∃ rate, Line.stat k rate (b.2.count k) ∈ (dump eachByte true ms { decoder := 0 }).out

/-- The first packet of a kind is not in any report if it is alone. -/
theorem C154_counted_counterexample : ¬ C154_counted_statement := by
  intro h
  obtain ⟨rate, hr⟩ := h [[(5, 10)]] (by decide +kernel) (0, [(5, 1)]) (by decide +kernel) (5, 1) (by decide)
  have e : (dump eachByte true [[(5, 10)]] { decoder := 0 }).out = [.lost 0, .total 0] := by decide +kernel
  rw [e] at hr
  simp at hr

end GnssTools
end Dronecan
