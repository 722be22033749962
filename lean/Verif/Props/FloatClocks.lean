import Verif.Model.FloatClocks
import Verif.Model.Monitor
import Verif.Props.FloatStamps

/-!
# Uptime (C162) and the conversion of time stamps (C163) with the rounding of floats
-/

namespace Dronecan
namespace FloatClocks
open Timestamps (Estimator Config Sample)
open FloatStamps (ulp near ulp_small)
open Actuators (fl_mono_all)

/-! ## Specification -/

/-- The uptime is the time since the start, to the nearest second. -/
def C162_statement : Prop := ∀ start now : Rat, fl start = start → fl now = now → 0 ≤ start → start ≤ now →
  ((uptime start now : Rat) - (now - start)).abs ≤ 1 / 2

/-- The time stamp of an event, in the time of the monotonic clock: the clocks differ by `real - mono`. -/
def mapped (mono real value : Rat) : Rat := value - (real - mono)

/-- The time stamp is mapped with an error of a microsecond at most. -/
def C163_statement : Prop := ∀ (dec : Rat → Rat) (past : List (Rat × Rat × Rat)) (mono real value x : Rat),
  (past ++ [(mono, real, value)]).Pairwise (fun a b => a.1 ≤ b.1) →
  (∀ y ∈ past ++ [(mono, real, value)], fl y.1 = y.1 ∧ fl y.2.1 = y.2.1 ∧ 0 ≤ y.1 ∧ 0 ≤ y.2.1) → 0 ≤ value →
  (convert dec (after dec {} past) mono real value).1 = .ok x → (x - mapped mono real value).abs ≤ 2 / 1000000

/-! ## Uptime -/

theorem floor_mono {a b : Rat} (h : a ≤ b) : a.floor ≤ b.floor := Rat.le_floor_iff.mpr (Rat.le_trans (Rat.floor_le a) h)

theorem uptime_eq {start now : Rat} (h : start ≤ now) : uptime start now = (fl (fl (now - start) + 1 / 2)).floor := by
  have : 0 ≤ fl (fl (now - start) + 1 / 2) := GnssTools.fl_nonneg (by
    have := GnssTools.fl_nonneg (q := now - start) (by grind)
    grind)
  simp only [uptime, truncRat]
  rw [if_neg (by grind)]

/-- **C162**: the uptime is the time since the start to the nearest second, up to the error. -/
theorem C162_partial (B start now : Rat) (h0 : 0 ≤ start) (h1 : start ≤ now) (hB : now + 1 ≤ B) :
    ((uptime start now : Rat) - (now - start)).abs ≤ 1 / 2 + 2 * ulp B := by
  obtain ⟨u0, u1⟩ := ulp_small (B := B) (by grind)
  have e1 := near (B := B) (x := now - start) (by grind) (by grind)
  have e2 := near (B := B) (x := fl (now - start) + 1 / 2) (by grind) (by grind)
  rw [uptime_eq h1]
  have f1 := Rat.floor_le (fl (fl (now - start) + 1 / 2))
  have f2 : fl (fl (now - start) + 1 / 2) < ((fl (fl (now - start) + 1 / 2)).floor : Rat) + 1 := by
    have := Rat.lt_floor_add_one (fl (fl (now - start) + 1 / 2))
    rw [Rat.intCast_add] at this
    exact this
  generalize fl (fl (now - start) + 1 / 2) = x at *
  generalize (x.floor : Rat) = n at *
  simp only [Rat.abs]
  split <;> grind

/-- **C162** (never less): while the node runs its uptime never decreases. -/
theorem C162_monotonic (start now later : Rat) (h1 : start ≤ now) (h2 : now ≤ later) : uptime start now ≤ uptime start later := by
  rw [uptime_eq h1, uptime_eq (Rat.le_trans h1 h2)]
  refine floor_mono (fl_mono_all ?_)
  have := fl_mono_all (p := now - start) (q := later - start) (by grind)
  grind

theorem C162_nonneg (start now : Rat) (h1 : start ≤ now) : 0 ≤ uptime start now := by
  rw [uptime_eq h1]
  have : 0 ≤ fl (fl (now - start) + 1 / 2) := GnssTools.fl_nonneg (by
    have := GnssTools.fl_nonneg (q := now - start) (by grind)
    grind)
  exact Rat.le_floor_iff.mpr (by simpa using this)

theorem C162_start (t : Rat) : uptime t t = 0 := by
  have : t - t = 0 := by grind
  simp only [uptime, this, fl_zero]
  decide +kernel

/-- **C162** (restarts): a node monitor that hears a node which has not restarted does not take it for restarted: it keeps what it knows. -/
theorem C162_running (e : Monitor.Entry) (start now later : Rat) (h1 : start ≤ now) (h2 : now ≤ later) (src : Nat) (ts : Int)
    (he : e.uptime = some (uptime start now).toNat) :
    (e.updateFromStatus ⟨src, ts, (uptime start later).toNat⟩).info = e.info ∧
    (e.updateFromStatus ⟨src, ts, (uptime start later).toNat⟩).retries = e.retries := by
  have := C162_monotonic start now later h1 h2
  simp only [Monitor.Entry.updateFromStatus, he]
  rw [if_neg (by omega)]
  exact ⟨rfl, rfl⟩

/-- **C162** (restarts): a node monitor that last heard a node when it had run for more than a second longer than it has run now, since its restart, notices. -/
theorem C162_restarted (B : Rat) (e : Monitor.Entry) (start now start' now' : Rat) (h0 : 0 ≤ start) (h1 : start ≤ now) (hB : now + 1 ≤ B)
    (h0' : 0 ≤ start') (h1' : start' ≤ now') (hB' : now' + 1 ≤ B) (h : now' - start' + 1 + 4 * ulp B < now - start) (src : Nat) (ts : Int)
    (he : e.uptime = some (uptime start now).toNat) :
    (e.updateFromStatus ⟨src, ts, (uptime start' now').toNat⟩).info = none ∧
    (e.updateFromStatus ⟨src, ts, (uptime start' now').toNat⟩).retries = 10 := by
  have a := C162_partial B start now h0 h1 hB
  have b := C162_partial B start' now' h0' h1' hB'
  have c := C162_nonneg start' now' h1'
  have : (uptime start' now' : Rat) < (uptime start now : Rat) := by
    simp only [Rat.abs] at a b
    split at a <;> split at b <;> grind
  have : uptime start' now' < uptime start now := Rat.intCast_lt_intCast.mp this
  simp only [Monitor.Entry.updateFromStatus, he]
  rw [if_pos (by omega)]
  exact ⟨rfl, rfl⟩

/-- Half a second less a very little. -/
theorem C162_counterexample : ¬ C162_statement := by
  intro h
  have := h (1 / 2 ^ 60) (1 / 2) (by decide +kernel) (by decide +kernel) (by decide +kernel) (by decide +kernel)
  exact absurd this (by decide +kernel)

example : uptime (3 / 4) (3 / 4) = 0 ∧ uptime (3 / 4) (5 / 4) = 1 ∧ uptime (3 / 4) (9 / 4) = 2 ∧ uptime (3 / 4) 11 = 10 := by decide +kernel

example : (Monitor.Entry.updateFromStatus { serial := 1, uptime := some (uptime 1 11).toNat, info := some [7], retries := 3 }
    ⟨5, 0, (uptime 20 22).toNat⟩).info = none ∧
    (Monitor.Entry.updateFromStatus { serial := 1, uptime := some (uptime 1 11).toNat, info := some [7], retries := 3 }
    ⟨5, 0, (uptime 1 22).toNat⟩).info = some [7] := by decide +kernel

/-! ## Time stamps -/

theorem config_rate : 0 ≤ config.rate ∧ config.rate ≤ 1 / 8 := by decide +kernel

theorem config_delay : 0 ≤ config.fixedDelay ∧ config.fixedDelay ≤ 1 / 999999 ∧ 1 / 1000001 ≤ config.fixedDelay := by decide +kernel

theorem config_phase : 0 ≤ config.maxPhase ∧ config.maxPhase ≤ 5 / 100 + 1 / 2 ^ 53 := by decide +kernel

/-- Within `B`. -/
def In (B x : Rat) : Prop := 0 ≤ x ∧ x ≤ B

/-- What is known of the reference: it is one of the readings `S` and was read before. -/
def Good (B mono : Rat) (S : Rat → Rat → Prop) (s : Estimator) : Prop := ∀ p q, s.pq = some (p, q) → p ≤ mono ∧ In B p ∧ In B q ∧ S p q

/-- What the estimator makes of the readings of the two clocks. -/
theorem estimate_bounds (dec : Rat → Rat) (B : Rat) (S : Rat → Rat → Prop) (s : Estimator) (mono real : Rat) (hx : fl mono = mono) (hm : In B mono) (hr : In B real) (h1 : 1 ≤ B)
    (hs : Good B mono S s) (hS : S mono real) : ∃ t s', FloatStamps.update dec config s mono real = (.ok t, s') ∧ Good B mono S s' ∧
      t ≤ real + config.fixedDelay + 3 * ulp B ∧ real + config.fixedDelay ≤ t + config.maxPhase + 11 * ulp B ∧
      ((∀ p q, S p q → real - q ≤ (1 + config.rate) * (mono - p)) → real + config.fixedDelay ≤ t + 6 * ulp B) := by
  obtain ⟨t, s', h, hc⟩ := FloatStamps.update_spec dec config rfl s ⟨mono, 0, real, 0⟩ hx (fun p q e => (hs p q e).1)
  obtain ⟨u0, u1⟩ := ulp_small (B := B) (by grind)
  have cr := config_rate
  have cd := config_delay
  have cp := config_phase
  have fB : config.fixedDelay ≤ B / 8 := by grind
  have hn := FloatStamps.new_near (B := B) (f := config.fixedDelay) hm.1 hm.2 hr.1 hr.2 cd.1 fB
  refine ⟨t, s', h, ?_⟩
  rcases hc with ⟨hpq, ht⟩ | ⟨p, q, e, e', hlt, ht⟩
  · have hg : Good B mono S s' := by
      intro p q e
      rw [hpq] at e
      injection e with e
      injection e with e1 e2
      subst e1
      subst e2
      exact ⟨Rat.le_refl, hm, hr, hS⟩
    refine ⟨hg, ?_⟩
    rcases ht with rfl | ⟨hlt, rfl⟩
    · simp only [FloatStamps.newOffset]
      refine ⟨?_, ?_, fun _ => ?_⟩ <;> grind
    · have := FloatStamps.old_near (B := B) hm.1 Rat.le_refl hm.2 hr.1 hr.2 hr.1 hr.2 cr.1 cr.2 cd.1 fB hlt
      simp only at this ⊢
      refine ⟨?_, ?_, fun _ => ?_⟩ <;> grind
  · obtain ⟨g1, g2, g3, g4⟩ := hs p q e
    refine ⟨fun p' q' e2 => hs p' q' (by rw [e, ← e', e2]), ?_⟩
    have hold := FloatStamps.old_near (B := B) g2.1 g1 hm.2 g3.1 g3.2 hr.1 hr.2 cr.1 cr.2 cd.1 fB hlt
    have hre := (FloatStamps.C160_resync dec B config rfl s p q mono real e hx g2.1 g2.2 g3.1 g3.2 hm.1 hm.2 hr.1 hr.2).2.1
    rw [h] at hre
    have hph : ((mono - p) - (real - q)).abs ≤ config.maxPhase + 5 * ulp B := by
      refine Rat.not_lt.mp fun hlt' => ?_
      have e3 := (hre hlt').2
      rw [e'] at e3
      injection e3 with e3
      injection e3 with e3 e4
      have z : (mono - p) - (real - q) = 0 := by grind
      rw [z] at hlt'
      have : (0 : Rat).abs = 0 := by decide +kernel
      grind
    have hl := Rat.mul_nonneg (a := config.rate) (b := mono - p) cr.1 (by grind)
    replace ht : t = fl (mono - FloatStamps.offset config p q mono) := ht
    rw [← ht] at hold
    have ha : -((mono - p) - (real - q)).abs ≤ (mono - p) - (real - q) := by
      simp only [Rat.abs]
      split <;> grind
    generalize ((mono - p) - (real - q)).abs = a at *
    generalize config.maxPhase = m at *
    generalize config.fixedDelay = f at *
    generalize config.rate = r at *
    clear hre hn
    refine ⟨?_, ?_, fun hst => ?_⟩
    · grind
    · grind
    · have := hst p q g4
      grind

theorem convert_bounds (dec : Rat → Rat) (B : Rat) (S : Rat → Rat → Prop) (s : Estimator) (mono real value : Rat) (hx : fl mono = mono) (hm : In B mono) (hr : In B real)
    (hv : In B value) (h1 : 1 ≤ B) (hs : Good B mono S s) (hS : S mono real) :
    ∃ x s', convert dec s mono real value = (.ok x, s') ∧ Good B mono S s' ∧
      mapped mono real value - config.fixedDelay - 6 * ulp B ≤ x ∧ x ≤ mapped mono real value - config.fixedDelay + config.maxPhase + 14 * ulp B ∧
      ((∀ p q, S p q → real - q ≤ (1 + config.rate) * (mono - p)) → x ≤ mapped mono real value - config.fixedDelay + 9 * ulp B) := by
  obtain ⟨t, s', h, hg, b1, b2, b3⟩ := estimate_bounds dec B S s mono real hx hm hr h1 hs hS
  obtain ⟨u0, u1⟩ := ulp_small (B := B) (by grind)
  have cd := config_delay
  have cp := config_phase
  obtain ⟨m0, m1⟩ := hm
  obtain ⟨r0, r1⟩ := hr
  obtain ⟨v0, v1⟩ := hv
  have cp2 : config.maxPhase ≤ 1 / 2 := by decide +kernel
  have e1 := near (B := B) (x := t - mono) (by grind) (by grind)
  have e2 := near (B := 2 * B) (x := value - fl (t - mono)) (by grind) (by grind)
  have e : ulp (2 * B) = 2 * ulp B := by simp only [ulp]; grind
  rw [e] at e2
  refine ⟨fl (value - fl (t - mono)), s', by simp only [convert, h], hg, ?_⟩
  simp only [mapped]
  refine ⟨?_, ?_, fun hst => ?_⟩
  · grind
  · grind
  · have := b3 hst
    grind

theorem good_le {B m m' : Rat} {S : Rat → Rat → Prop} {s : Estimator} (h : Good B m S s) (hm : m ≤ m') : Good B m' S s :=
  fun p q e => ⟨Rat.le_trans (h p q e).1 hm, (h p q e).2⟩

theorem after_good (dec : Rat → Rat) (B mono : Rat) (S : Rat → Rat → Prop) (h1 : 1 ≤ B) (xs : List (Rat × Rat × Rat)) :
    ∀ s : Estimator, (∀ x ∈ xs, fl x.1 = x.1 ∧ In B x.1 ∧ In B x.2.1 ∧ In B x.2.2 ∧ x.1 ≤ mono ∧ S x.1 x.2.1) → xs.Pairwise (fun a b => a.1 ≤ b.1) →
    (∀ x ∈ xs.head?, Good B x.1 S s) → Good B mono S s → Good B mono S (after dec s xs) := by
  induction xs with
  | nil => intro s _ _ _ h; exact h
  | cons x xs ih =>
    intro s hx hp hh hg
    obtain ⟨a1, a2, a3, a4, a5, a6⟩ := hx x List.mem_cons_self
    obtain ⟨y, s', e, g, -⟩ := convert_bounds dec B S s x.1 x.2.1 x.2.2 a1 a2 a3 a4 h1 (hh x rfl) a6
    have : after dec s (x :: xs) = after dec s' xs := by
      simp only [after, List.foldl_cons, e]
    rw [this]
    rw [List.pairwise_cons] at hp
    refine ih s' (fun z hz => hx z (List.mem_cons_of_mem _ hz)) hp.2 ?_ (good_le g a5)
    intro z hz
    have hz : z ∈ xs := List.mem_of_mem_head? hz
    exact good_le g (hp.1 z hz)

/-- **C163**: whatever was converted before, a time stamp is mapped to the monotonic clock with an error of a microsecond towards the past, or fifty
milliseconds towards the future, at most, and some units of rounding. The monotonic clock must not go back. The other one may jump. If it has never been faster
than the monotonic clock by more than 100 ppm then the error is a microsecond, towards the past. -/
theorem C163_partial (dec : Rat → Rat) (B : Rat) (h1 : 1 ≤ B) (past : List (Rat × Rat × Rat)) (mono real value : Rat)
    (hp : (past ++ [(mono, real, value)]).Pairwise (fun a b => a.1 ≤ b.1))
    (hx : ∀ y ∈ past ++ [(mono, real, value)], fl y.1 = y.1 ∧ In B y.1 ∧ In B y.2.1 ∧ In B y.2.2) :
    ∃ x, (convert dec (after dec {} past) mono real value).1 = .ok x ∧
      mapped mono real value - 1 / 999999 - 6 * ulp B ≤ x ∧ x ≤ mapped mono real value + 5 / 100 + 15 * ulp B ∧
      ((∀ y ∈ past, real - y.2.1 ≤ (1 + 1 / 10000) * (mono - y.1)) → x ≤ mapped mono real value - 1 / 1000001 + 9 * ulp B) := by
  rw [List.pairwise_append] at hp
  obtain ⟨a1, a2, a3, a4⟩ := hx (mono, real, value) (List.mem_append_right _ List.mem_cons_self)
  have hg := after_good dec B mono (fun p q => ∃ v, (p, q, v) ∈ past ++ [(mono, real, value)]) h1 past {} (fun y hy => by
    obtain ⟨b1, b2, b3, b4⟩ := hx y (List.mem_append_left _ hy)
    exact ⟨b1, b2, b3, b4, hp.2.2 y hy _ List.mem_cons_self, y.2.2, List.mem_append_left _ hy⟩) hp.1 (fun _ _ p q e => by cases e) (fun p q e => by cases e)
  obtain ⟨x, s', e, -, c1, c2, c3⟩ := convert_bounds dec B _ _ mono real value a1 a2 a3 a4 h1 hg ⟨value, List.mem_append_right _ List.mem_cons_self⟩
  refine ⟨x, by rw [e], ?_⟩
  have cd := config_delay
  have cp : config.maxPhase - config.fixedDelay ≤ 5 / 100 := by decide +kernel
  obtain ⟨u0, u1⟩ := ulp_small (B := B) (by grind)
  have hrate : 1 / 10000 ≤ config.rate := by decide +kernel
  refine ⟨by grind, by grind, fun hst => ?_⟩
  have := c3 (fun p q ⟨v, h⟩ => by
    rw [List.mem_append, List.mem_singleton] at h
    rcases h with h | h
    · have a := hst _ h
      have b : p ≤ mono := hp.2.2 _ h _ List.mem_cons_self
      have c := Rat.mul_nonneg (a := config.rate - 1 / 10000) (b := mono - p) (by grind) (by grind)
      simp only at a
      grind
    · injection h with h1 h2
      injection h2 with h2 h3
      subst h1
      subst h2
      grind)
  grind

/-- The clocks agree, then the real one is set forward by a thirty-second of a second, which is not enough for the estimator to notice. -/
theorem C163_counterexample : ¬ C163_statement := by
  intro h
  have := h id [(1, 1, 1)] 2 (2 + 1 / 32) (2 + 1 / 32)
    (fl (2 + 1 / 32 - fl (fl (2 - FloatStamps.offset config 1 1 2) - 2))) (by decide +kernel) (by decide +kernel) (by decide +kernel) (by decide +kernel)
  exact absurd this (by decide +kernel)

/-- Real time is a thousand seconds ahead. -/
example : (convert id (after id {} [(1, 1001, 1000)]) 2 1002 (1002 - 1 / 2)).1 = .ok (fl (1002 - 1 / 2 - fl (fl (2 - FloatStamps.newOffset config 2 1002) - 2))) ∧
    (fl (1002 - 1 / 2 - fl (fl (2 - FloatStamps.newOffset config 2 1002) - 2)) - 3 / 2).abs ≤ 2 / 1000000 := by decide +kernel

end FloatClocks
end Dronecan
