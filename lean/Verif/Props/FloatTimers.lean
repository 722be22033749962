import Verif.Model.FloatTimers
import Verif.Props.FloatStamps

/-!
# Timers with the rounding of floats (C161)
-/

namespace Dronecan
namespace FloatTimers
open Actuators (fl_mono_all fl_near)
open FloatStamps (ulp near ulp_small)

/-- Zero phase drift: the timer was always due at a multiple of the period after the start. -/
def C161_statement : Prop := ∀ (t0 p : Rat) (clock : List Rat), fl t0 = t0 → fl p = p → 0 ≤ t0 → 0 < p → clock.Pairwise (· ≤ ·) → (∀ c ∈ clock, t0 ≤ c) →
  ∀ k (h : k < (run p (periodic t0 p) clock).runs.length), ((run p (periodic t0 p) clock).runs[k]).1 = t0 + (k + 1 : Nat) * p

/-- The loop of the scheduler ends: the clock stands still, and the timer runs a limited number of times. -/
def C161_ends_statement : Prop := ∀ (t0 p now : Rat), fl t0 = t0 → fl p = p → 0 ≤ t0 → 0 < p → t0 ≤ now →
  ∃ n, ∀ m, (run p (periodic t0 p) (List.replicate m now)).runs.length ≤ n

/-- What is known after some readings of the clock. -/
structure Inv (B t0 p : Rat) (t : Timer) : Prop where
  due : ∃ x, t.deadline = fl x ∧ 0 ≤ x ∧ -(t.runs.length * ulp B) ≤ x - (t0 + (t.runs.length + 1 : Nat) * p) ∧
    x - (t0 + (t.runs.length + 1 : Nat) * p) ≤ t.runs.length * ulp B
  runs : ∀ k (h : k < t.runs.length), (t.runs[k]).1 ≤ (t.runs[k]).2 ∧ -((k + 1 : Nat) * ulp B) ≤ (t.runs[k]).1 - (t0 + (k + 1 : Nat) * p) ∧
    (t.runs[k]).1 - (t0 + (k + 1 : Nat) * p) ≤ (k + 1 : Nat) * ulp B

/-- Rounding a number that rounds to at most `B`. -/
theorem near_of {B x : Rat} (h0 : 0 ≤ x) (h : fl x ≤ B) : -ulp B ≤ fl x - x ∧ fl x - x ≤ ulp B := by
  have hB : 0 ≤ B := by
    have := GnssTools.fl_nonneg h0
    grind
  refine near (by grind) ?_
  by_cases hx : x = 0
  · grind
  · have := GnssTools.fl_bounds (q := x) (by grind)
    grind

theorem inv_periodic (B t0 p : Rat) (h0 : 0 ≤ t0) (hp : 0 ≤ p) : Inv B t0 p (periodic t0 p) := by
  refine ⟨⟨t0 + p, rfl, by grind, ?_, ?_⟩, fun k h => absurd h (Nat.not_lt_zero k)⟩ <;>
  · show _ ≤ _
    simp only [periodic, List.length_nil]
    grind

theorem inv_step (B t0 p : Rat) (hp : 0 ≤ p) (t : Timer) (now : Rat) (hn : now ≤ B) (h : Inv B t0 p t) :
    Inv B t0 p (step p t now) := by
  unfold step
  split
  · exact h
  · rename_i hlt
    obtain ⟨x, hx, hx0, hx1, hx2⟩ := h.due
    have hdb : t.deadline ≤ now := by grind
    have hnear := near_of (B := B) hx0 (by rw [← hx]; grind)
    have hd0 : 0 ≤ t.deadline := by rw [hx]; exact GnssTools.fl_nonneg hx0
    rw [← hx] at hnear
    have e1 : ((t.runs.length + 1 : Nat) : Rat) * ulp B = (t.runs.length : Rat) * ulp B + ulp B := by
      rw [Rat.natCast_add]
      grind
    have e2 : ((t.runs.length + 1 + 1 : Nat) : Rat) * p = ((t.runs.length + 1 : Nat) : Rat) * p + p := by
      rw [Rat.natCast_add (t.runs.length + 1)]
      grind
    refine ⟨⟨t.deadline + p, rfl, by grind, ?_, ?_⟩, ?_⟩
    · simp only [List.length_append, List.length_cons, List.length_nil, Nat.zero_add]
      rw [e1, e2]
      grind
    · simp only [List.length_append, List.length_cons, List.length_nil, Nat.zero_add]
      rw [e1, e2]
      grind
    · intro k hk
      simp only [List.length_append, List.length_cons, List.length_nil, Nat.zero_add] at hk
      by_cases hkl : k < t.runs.length
      · simp only [List.getElem_append_left hkl]
        exact h.runs k hkl
      · have : k = t.runs.length := by omega
        subst this
        simp only [List.getElem_append_right (Nat.le_refl _), Nat.sub_self, List.getElem_cons_zero]
        rw [e1]
        refine ⟨hdb, ?_, ?_⟩ <;> grind

theorem inv_run (B t0 p : Rat) (hp : 0 ≤ p) (clock : List Rat) : ∀ t, (∀ c ∈ clock, c ≤ B) → Inv B t0 p t → Inv B t0 p (run p t clock) := by
  induction clock with
  | nil => intro t _ h; exact h
  | cons c cs ih =>
    intro t hc h
    exact ih _ (fun d hd => hc d (by simp [hd])) (inv_step B t0 p hp t c (hc c (by simp)) h)

/-- **C161**: the run with number `k` is never early, and it was due `k` periods after the start up to `k` rounding errors, as long as the clock shows at
most `B`. -/
theorem C161_partial (B t0 p : Rat) (h0 : 0 ≤ t0) (hp : 0 ≤ p) (clock : List Rat) (hc : ∀ c ∈ clock, c ≤ B) :
    ∀ k (h : k < (run p (periodic t0 p) clock).runs.length), ((run p (periodic t0 p) clock).runs[k]).1 ≤ ((run p (periodic t0 p) clock).runs[k]).2 ∧
      (((run p (periodic t0 p) clock).runs[k]).1 - (t0 + (k + 1 : Nat) * p)).abs ≤ (k + 1 : Nat) * ulp B := by
  intro k h
  obtain ⟨h1, h2, h3⟩ := (inv_run B t0 p hp clock _ hc (inv_periodic B t0 p h0 hp)).runs k h
  refine ⟨h1, ?_⟩
  simp only [Rat.abs]
  split <;> grind

/-- A run is missed by no iteration of the scheduler. -/
theorem C161_due (p : Rat) (t : Timer) (now : Rat) (h : t.deadline ≤ now) : (step p t now).runs = t.runs ++ [(t.deadline, now)] := by
  simp only [step]
  rw [if_neg (by grind)]

theorem C161_not_due (p : Rat) (t : Timer) (now : Rat) (h : now < t.deadline) : step p t now = t := by
  simp only [step]
  rw [if_pos h]

theorem runs_clock (p : Rat) (clock : List Rat) : ∀ t, ∀ r ∈ (run p t clock).runs, r ∈ t.runs ∨ r.2 ∈ clock := by
  induction clock with
  | nil => intro t r h; exact .inl h
  | cons c cs ih =>
    intro t r h
    rcases ih (step p t c) r h with h | h
    · unfold step at h
      split at h
      · exact .inl h
      · rw [List.mem_append, List.mem_singleton] at h
        rcases h with h | rfl
        · exact .inl h
        · exact .inr (by simp)
    · exact .inr (by simp [h])

/-- **C161** (not too many): until the clock shows `now`, a timer has run no more often than the period allows, give or take one rounding error per run.
So if the period is more than this error, the loop of the scheduler ends. -/
theorem C161_limit_partial (B t0 p now : Rat) (h0 : 0 ≤ t0) (hp : 0 ≤ p) (hn : now ≤ B) (clock : List Rat) (hc : ∀ c ∈ clock, c ≤ now)
    (hl : (run p (periodic t0 p) clock).runs ≠ []) : ((run p (periodic t0 p) clock).runs.length : Rat) * (p - ulp B) ≤ now - t0 := by
  have hlen : 0 < (run p (periodic t0 p) clock).runs.length := List.length_pos_iff.mpr hl
  obtain ⟨h1, h2, -⟩ := (inv_run B t0 p hp clock _ (fun c h => Rat.le_trans (hc c h) hn) (inv_periodic B t0 p h0 hp)).runs
    ((run p (periodic t0 p) clock).runs.length - 1) (by omega)
  have h3 : ((run p (periodic t0 p) clock).runs[(run p (periodic t0 p) clock).runs.length - 1]'(by omega)).2 ≤ now := by
    rcases runs_clock p clock (periodic t0 p) _ (List.getElem_mem (l := (run p (periodic t0 p) clock).runs)
      (n := (run p (periodic t0 p) clock).runs.length - 1) (by omega)) with h | h
    · cases h
    · exact hc _ h
  rw [Nat.sub_add_cancel hlen] at h2
  grind

/-- **C161** (none is missed): when the loop of the scheduler has ended at the time `now`, all runs that were due have happened. -/
theorem C161_all_partial (B t0 p now : Rat) (h0 : 0 ≤ t0) (hp : 0 ≤ p) (clock : List Rat) (hc : ∀ c ∈ clock, c ≤ B)
    (hd : now < (run p (periodic t0 p) clock).deadline) :
    now < (t0 + ((run p (periodic t0 p) clock).runs.length + 1 : Nat) * p + (run p (periodic t0 p) clock).runs.length * ulp B) * (1 + 1 / 2 ^ 53) := by
  obtain ⟨x, hx, hx0, -, hx2⟩ := (inv_run B t0 p hp clock _ hc (inv_periodic B t0 p h0 hp)).due
  rw [show ((2 : Rat) ^ 53) = 9007199254740992 by decide +kernel]
  rw [hx] at hd
  generalize (run p (periodic t0 p) clock).runs.length = n at *
  have : fl x ≤ x * (1 + 1 / 9007199254740992) := by
    by_cases h : x = 0
    · rw [h, fl_zero]
      grind
    · exact (GnssTools.fl_bounds (by grind)).2
  grind

theorem C161_counterexample : ¬ C161_statement := by
  intro h
  have := h 0 (3602879701896397 / 36028797018963968) [1, 1, 1] (by decide +kernel) (by decide +kernel) (by decide +kernel) (by decide +kernel)
    (by decide +kernel) (by decide +kernel) 2 (by decide +kernel)
  exact absurd this (by decide +kernel)

theorem stuck (m : Nat) : ∀ l, (run (1 / 2 ^ 60) ⟨1, l⟩ (List.replicate m 1)).runs.length = l.length + m := by
  have hf : fl (1 + 1 / 2 ^ 60) = 1 := by decide +kernel
  induction m with
  | zero => intro l; rfl
  | succ m ih =>
    intro l
    show (run (1 / 2 ^ 60) (step (1 / 2 ^ 60) ⟨1, l⟩ 1) (List.replicate m 1)).runs.length = _
    have : step (1 / 2 ^ 60) ⟨1, l⟩ 1 = ⟨1, l ++ [(1, 1)]⟩ := by
      simp only [step, hf]
      rw [if_neg (by decide)]
    rw [this, ih]
    simp
    omega

/-- If the period is lost in rounding then the loop of the scheduler never ends. -/
theorem C161_ends_counterexample : ¬ C161_ends_statement := by
  intro h
  obtain ⟨n, hn⟩ := h 1 (1 / 2 ^ 60) 1 (by decide +kernel) (by decide +kernel) (by decide +kernel) (by decide +kernel) Rat.le_refl
  have h1 := hn (n + 1)
  have h2 : periodic 1 (1 / 2 ^ 60) = ⟨1, []⟩ := by decide +kernel
  rw [h2, stuck] at h1
  simp at h1
  omega

/-- A tenth of a second, as a float: the third run is due too late by a little, and the error is within the bound. -/
example : (run (3602879701896397 / 36028797018963968) (periodic 0 (3602879701896397 / 36028797018963968)) [1 / 16, 1 / 8, 1, 1]).runs =
    [(3602879701896397 / 36028797018963968, 1 / 8), (3602879701896397 / 18014398509481984, 1), (1351079888211149 / 4503599627370496, 1)] ∧
    (1351079888211149 / 4503599627370496 : Rat) ≠ 3 * (3602879701896397 / 36028797018963968) ∧
    ((1351079888211149 / 4503599627370496 : Rat) - 3 * (3602879701896397 / 36028797018963968)).abs ≤ 3 * ulp 1 := by decide +kernel

/-! ## Waiting -/

/-- **C161** (waiting): `spin` does not wait for a frame longer than until the next event, up to the time between the two readings of the clock that the
scheduler makes, and rounding. -/
theorem C161_wait (B due now later : Rat) (deadline : Option Rat) (now' : Rat) (h0 : 0 ≤ now) (h1 : now ≤ later) (h2 : later ≤ now') (h3 : now' ≤ B)
    (d0 : 0 ≤ due) (d1 : due + (later - now) ≤ B) :
    now' + readTimeout (nextEventAt due now later) deadline now' ≤ max now' (due + (later - now) + 3 * ulp B) := by
  obtain ⟨u0, u1⟩ := ulp_small (B := B) (by grind)
  have e1 := near (B := B) (x := due - now) (by grind) (by grind)
  have e2 := near (B := B) (x := fl (due - now) + later) (by grind) (by grind)
  simp only [readTimeout, nextEventAt]
  generalize hx : fl (fl (due - now) + later) = x at *
  have e3 : fl (x - now') ≤ x - now' + ulp B := by
    have := near (B := B) (x := x - now') (by grind) (by grind)
    grind
  have hm : fl ((match deadline with | none => x | some d => min x d) - now') ≤ fl (x - now') := by
    refine fl_mono_all ?_
    cases deadline with
    | none => exact Rat.le_refl
    | some d =>
      show min x d - now' ≤ x - now'
      grind
  generalize fl ((match deadline with | none => x | some d => min x d) - now') = t at *
  grind

/-- **C161** (waiting): nor longer than until the deadline of `spin`, up to rounding. -/
theorem C161_wait_deadline (B next d now : Rat) (h0 : 0 ≤ now) (h1 : now ≤ B) (d0 : 0 ≤ d) (d1 : d ≤ B) :
    now + readTimeout next (some d) now ≤ max now (d + ulp B) := by
  have e := near (B := B) (x := d - now) (by grind) (by grind)
  have hm : fl (min next d - now) ≤ fl (d - now) := fl_mono_all (by grind)
  simp only [readTimeout]
  generalize fl (min next d - now) = t at *
  grind

/-- **C161** (waiting): `spin` waits for a frame until the next event or its deadline, or a second, whichever is first, up to rounding. -/
theorem C161_wait_enough (B next d now : Rat) (h0 : 0 ≤ now) (h1 : now ≤ B) (d0 : 0 ≤ d) (d1 : d ≤ B) (n0 : 0 ≤ next) (n1 : next ≤ B) :
    min (min next d) (now + 1) ≤ now + readTimeout next (some d) now + ulp B := by
  obtain ⟨u0, -⟩ := ulp_small (B := B) (by grind)
  have e := near (B := B) (x := min next d - now) (by grind) (by grind)
  simp only [readTimeout]
  generalize fl (min next d - now) = t at *
  grind

/-- **C161** (waiting): the timeout that `receive` gets is never negative and never more than a second, whatever the clock shows. -/
theorem C161_wait_range (next : Rat) (deadline : Option Rat) (now : Rat) : 0 ≤ readTimeout next deadline now ∧ readTimeout next deadline now ≤ 1 := by
  simp only [readTimeout]
  generalize fl _ = t
  constructor <;> grind

/-- **C161** (the deadline of `spin`). -/
theorem C161_spin (B now timeout : Rat) (h0 : 0 ≤ now) (h1 : now ≤ B) (t0 : 0 ≤ timeout) (t1 : timeout ≤ B) :
    (spinDeadline now timeout - (now + timeout)).abs ≤ ulp B := by
  have e := near (B := B) (x := now + timeout) (by grind) (by grind)
  simp only [spinDeadline]
  generalize fl (now + timeout) - (now + timeout) = d at *
  simp only [Rat.abs]
  split <;> grind

example : readTimeout (nextEventAt 7 5 5) (some 20) 6 = 1 ∧ readTimeout (nextEventAt (13 / 2) 5 5) (some 20) 6 = 1 / 2 ∧
    readTimeout (nextEventAt 7 5 5) (some (25 / 4)) 6 = 1 / 4 ∧ readTimeout (nextEventAt 3 5 5) none 6 = 0 ∧ spinDeadline 6 (1 / 2) = 13 / 2 := by
  decide +kernel

end FloatTimers
end Dronecan
