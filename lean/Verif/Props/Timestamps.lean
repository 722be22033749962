import Verif.Model.Timestamps
import Verif.Proofs.Double

/-!
# Time stamps (C53, C54)
-/

namespace Dronecan
namespace Timestamps

/-! ## Specification -/

/-- One message: the true time of the source clock, how often that clock has overflowed, the time of arrival, and the true
time of the event by the target clock. -/
structure Sample where
  src : Rat
  wraps : Int
  arrival : Rat
  event : Rat

/-- What the source clock shows. -/
def Sample.shown (period : Option Rat) (x : Sample) : Rat :=
  match period with
  | none => x.src
  | some p => x.src - (x.wraps : Rat) * p

/-- What the estimator sees. -/
def Sample.seen (period : Option Rat) (x : Sample) : Rat × Rat := (x.shown period, x.arrival)

/-- Consecutive messages: the arrival times do not decrease, and the clocks disagree by less than half an overflow period. -/
def Follows (period : Option Rat) (x y : Sample) : Prop :=
  x.arrival ≤ y.arrival ∧ ∀ p, period = some p →
    (y.arrival - x.arrival) - (y.src - x.src) < p / 2 ∧ (y.src - x.src) - (y.arrival - x.arrival) < p / 2

/-- A history of such messages. -/
def Chain (period : Option Rat) : Sample → List Sample → Prop
  | _, [] => True
  | x, y :: ys => Follows period x y ∧ Chain period y ys

/-! ## C53 -/

theorem roundHalfEven_int (n : Int) (m : Rat) (h1 : m - (n : Rat) < 1 / 2) (h2 : (n : Rat) - m < 1 / 2) : roundHalfEven m = n := by
  obtain ⟨a, b⟩ := roundHalfEven_le m
  generalize roundHalfEven m = r at *
  have h3 : (r : Rat) < ((n + 1 : Int) : Rat) := by rw [Rat.intCast_add]; grind
  have h4 : (n : Rat) < ((r + 1 : Int) : Rat) := by rw [Rat.intCast_add]; grind
  rw [Rat.intCast_lt_intCast] at h3 h4
  omega

/-- The resolver has seen `x`, and shows the true time shifted by `c`. -/
structure Resolved (period : Option Rat) (c : Rat) (r : Resolver) (x : Sample) : Prop where
  time : r.time = some (x.src + c)
  source : r.prevSource = x.shown period
  target : r.prevTarget = x.arrival
  shift : period = none → c = 0

theorem resolve_first (period : Option Rat) (r : Resolver) (h : r.time = none ∨ period = none) (x : Sample) :
    ∃ c r', resolve period r (x.shown period) x.arrival = (.ok (x.src + c), r') ∧ Resolved period c r' x ∧
      c = x.shown period - x.src := by
  refine ⟨x.shown period - x.src, ⟨some (x.shown period), x.shown period, x.arrival⟩, ?_, ⟨?_, rfl, rfl, ?_⟩, rfl⟩
  · unfold resolve
    split
    · rename_i h1 h2
      rcases h with h | h <;> simp_all
    · simp only [Prod.mk.injEq, Except.ok.injEq, and_true]
      grind
  · simp only [Option.some.injEq]
    grind
  · intro hp
    subst hp
    simp only [Sample.shown]
    grind

theorem resolve_next (period : Option Rat) (hp : ∀ p, period = some p → 0 < p) (c : Rat) (r : Resolver) (x y : Sample)
    (h : Resolved period c r x) (hf : Follows period x y) :
    ∃ r', resolve period r (y.shown period) y.arrival = (.ok (y.src + c), r') ∧ Resolved period c r' y := by
  cases period with
  | none =>
    obtain ⟨c', r', h1, h2, h3⟩ := resolve_first none r (.inr rfl) y
    have hc := h.shift rfl
    have hc' := h2.shift rfl
    subst hc hc'
    exact ⟨r', h1, h2⟩
  | some p =>
    have hp := hp p rfl
    obtain ⟨f1, f2⟩ := hf
    obtain ⟨f2, f3⟩ := f2 p rfl
    have hr : r = ⟨some (x.src + c), x.shown (some p), x.arrival⟩ := by
      have h1 := h.time
      have h2 := h.source
      have h3 := h.target
      cases r
      simp_all
    subst hr
    have hne : p ≠ 0 := Rat.ne_of_gt hp
    have hcyc : roundHalfEven ((y.arrival - x.arrival - (y.shown (some p) - x.shown (some p))) / p) = y.wraps - x.wraps := by
      have e : (y.arrival - x.arrival - (y.shown (some p) - x.shown (some p))) / p =
          ((y.wraps - x.wraps : Int) : Rat) + ((y.arrival - x.arrival) - (y.src - x.src)) / p := by
        simp only [Sample.shown, Rat.intCast_sub]
        grind
      have hinv : (0 : Rat) < p⁻¹ := Rat.inv_pos.2 hp
      have hpi : p * p⁻¹ = 1 := Rat.mul_inv_cancel p hne
      rw [e]
      have g1 := Rat.mul_lt_mul_of_pos_right f2 hinv
      have g2 := Rat.mul_lt_mul_of_pos_right f3 hinv
      apply roundHalfEven_int
      · rw [Rat.div_def]
        grind
      · rw [Rat.div_def]
        grind
    have hval : x.src + c + ((y.wraps - x.wraps : Int) : Rat) * p + (y.shown (some p) - x.shown (some p)) = y.src + c := by
      simp only [Sample.shown, Rat.intCast_sub]
      grind
    refine ⟨⟨some (y.src + c), y.shown (some p), y.arrival⟩, ?_, ⟨rfl, rfl, rfl, fun h => by simp at h⟩⟩
    unfold resolve
    dsimp only
    rw [if_neg (by grind), hcyc, hval]

theorem resolveAll_spec (period : Option Rat) (hp : ∀ p, period = some p → 0 < p) (c : Rat) (xs : List Sample) :
    ∀ (r : Resolver) (x : Sample), Resolved period c r x → Chain period x xs →
    resolveAll period r (xs.map (Sample.seen period)) = xs.map fun y => .ok (y.src + c) := by
  induction xs with
  | nil => intro r x _ _; rfl
  | cons y ys ih =>
    intro r x h hc
    obtain ⟨r', h1, h2⟩ := resolve_next period hp c r x y h hc.1
    simp only [List.map_cons, resolveAll, Sample.seen, h1]
    rw [← ih r' y h2 hc.2]

/-- Whatever the history, if between consecutive messages the clocks disagree by less than half an overflow period: the
resolved time is the true time of the source, counted from what the clock showed in the first message. -/
theorem C53_resolved (period : Option Rat) (hp : ∀ p, period = some p → 0 < p) (x : Sample) (xs : List Sample)
    (h : Chain period x xs) :
    resolveAll period {} ((x :: xs).map (Sample.seen period)) =
      (x :: xs).map fun y => .ok (x.shown period + (y.src - x.src)) := by
  obtain ⟨c, r, h1, h2, h3⟩ := resolve_first period {} (.inl rfl) x
  have := resolveAll_spec period hp c xs r x h2 h
  have e : ∀ y : Sample, y.src + c = x.shown period + (y.src - x.src) := by
    intro y
    subst h3
    grind
  simp only [List.map_cons, resolveAll, Sample.seen, h1, e]
  simp only [e] at this
  rw [← this]

/-- A clock that overflows every 60 s, with 0, 1 and 17 overflows between messages. -/
example :
    let xs : List Sample := [⟨70, 1, 1000, 0⟩, ⟨100, 1, 1025, 0⟩, ⟨125, 2, 1055, 0⟩, ⟨1140, 19, 2080, 0⟩]
    Chain (some 60) xs[0] xs.tail ∧
    resolveAll (some 60) {} (xs.map (Sample.seen (some 60))) = [.ok 10, .ok 40, .ok 65, .ok 1080] := by
  refine ⟨?_, by decide +kernel⟩
  simp only [Chain, Follows, List.tail_cons, and_true]
  refine ⟨⟨by decide +kernel, ?_⟩, ⟨by decide +kernel, ?_⟩, by decide +kernel, ?_⟩ <;>
    (intro p hp; injection hp with hp; subst hp; decide +kernel)

/-! ## C54 -/

/-- The source clock does not run backwards. -/
def SourceUp (xs : List Sample) : Prop := xs.Pairwise fun x y => x.src ≤ y.src

/-- The assumptions of the estimator: no message arrives before its event, and the target clock is faster than the source
clock by no more than `rate`. -/
structure Assumptions (rate : Rat) (xs : List Sample) : Prop where
  latency : ∀ x ∈ xs, x.event ≤ x.arrival
  rate : xs.Pairwise fun x y => y.event - x.event ≤ (1 + rate) * (y.src - x.src)

/-- What `TimestampEstimator` guarantees of its parameters. -/
structure GoodConfig (cfg : Config) : Prop where
  period : ∀ p, cfg.period = some p → 0 < p
  rate : 0 ≤ cfg.rate
  delay : 0 ≤ cfg.fixedDelay
  phase : 0 < cfg.maxPhase

theorem goodConfig (rate period fixedDelay maxPhase : Option Rat) (cfg : Config)
    (h : mkConfig rate period fixedDelay maxPhase = .ok cfg) : GoodConfig cfg := by
  unfold mkConfig at h
  dsimp only at h
  split at h
  · simp at h
  · split at h
    · simp at h
    · split at h
      · simp at h
      · rename_i h1 h2 h3
        split at h
        · injection h with h
          subst h
          exact ⟨by simp, by grind, by grind, by grind⟩
        · split at h
          · injection h with h
            subst h
            exact ⟨by simp, by grind, by grind, by grind⟩
          · split at h
            · simp at h
            · injection h with h
              subst h
              exact ⟨by intro p hp; injection hp with hp; grind, by grind, by grind, by grind⟩

/-- The estimator after message `x`, for which it returned `t`; `past` are the messages so far. Its reference is one of
them. -/
def After (cfg : Config) (past : List Sample) (s : Estimator) (x : Sample) (t : Rat) : Prop :=
  ∃ c k, Resolved cfg.period c s.resolver x ∧ k ∈ past ∧ s.pq = some (k.src + c, k.arrival) ∧ k.src ≤ x.src ∧
    t = k.arrival + (1 + cfg.rate) * (x.src - k.src) + cfg.fixedDelay ∧ t ≤ x.arrival + cfg.fixedDelay

/-- The end of `update` with reference `k`. -/
theorem estimate_spec (cfg : Config) (past : List Sample) (s : Estimator) (c : Rat) (k y : Sample)
    (hr : Resolved cfg.period c s.resolver y) (hk : k ∈ past) (hy : y ∈ past) (hs : k.src ≤ y.src) :
    ∃ t s', estimate cfg s (k.src + c) k.arrival (y.src + c) y.arrival = (.ok t, s') ∧ After cfg past s' y t ∧
      (y.arrival + cfg.fixedDelay ≤ t ∨ k.arrival + (1 + cfg.rate) * (y.src - k.src) + cfg.fixedDelay ≤ t) := by
  unfold estimate
  rw [if_neg (by grind)]
  dsimp only
  split
  · rename_i h
    exact ⟨_, _, rfl, ⟨c, y, hr, hy, rfl, Rat.le_refl, by grind, by grind⟩, .inl (by grind)⟩
  · rename_i h
    exact ⟨_, _, rfl, ⟨c, k, hr, hk, rfl, hs, by grind, by grind⟩, .inr (by grind)⟩

theorem update_first (cfg : Config) (hg : GoodConfig cfg) (x : Sample) :
    ∃ s, update cfg {} (x.shown cfg.period) x.arrival = (.ok (x.arrival + cfg.fixedDelay), s) ∧
      After cfg [x] s x (x.arrival + cfg.fixedDelay) := by
  obtain ⟨c, r, h1, h2, h3⟩ := resolve_first cfg.period {} (.inl rfl) x
  have hd : ¬ cfg.maxPhase < (((x.src + c) - (x.src + c)) - (x.arrival - x.arrival)).abs := by
    have : ((x.src + c) - (x.src + c)) - (x.arrival - x.arrival) = 0 := by grind
    rw [this, Rat.abs_zero]
    have := hg.phase
    grind
  obtain ⟨t, s', e1, e2, e3⟩ := estimate_spec cfg [x]
    { resolver := r, delay := (((x.src + c) - (x.src + c)) - (x.arrival - x.arrival)).abs } c x x h2 (by simp) (by simp) Rat.le_refl
  have ht : t = x.arrival + cfg.fixedDelay := by
    obtain ⟨_, _, _, _, _, _, _, hle⟩ := e2
    rcases e3 with e3 | e3 <;> grind
  subst ht
  refine ⟨s', ?_, e2⟩
  unfold update
  simp only [h1, Option.getD_none]
  rw [if_neg hd]
  exact e1

theorem After.mono {cfg : Config} {past past' : List Sample} {s : Estimator} {x : Sample} {t : Rat} (h : After cfg past s x t)
    (hp : ∀ k ∈ past, k ∈ past') : After cfg past' s x t := by
  obtain ⟨c, k, h1, h2, h3⟩ := h
  exact ⟨c, k, h1, hp k h2, h3⟩

theorem update_next (cfg : Config) (hg : GoodConfig cfg) (past : List Sample) (s : Estimator) (x y : Sample) (t : Rat)
    (h : After cfg past s x t) (hf : Follows cfg.period x y) (hs : x.src ≤ y.src) :
    ∃ t' s', update cfg s (y.shown cfg.period) y.arrival = (.ok t', s') ∧ After cfg (y :: past) s' y t' ∧ t ≤ t' := by
  obtain ⟨c, k, h1, h2, h3, h4, h5, h6⟩ := h
  obtain ⟨r', r1, r2⟩ := resolve_next cfg.period hg.period c s.resolver x y h1 hf
  have hfa := hf.1
  have hup : 0 ≤ cfg.rate * (y.src - x.src) := Rat.mul_nonneg hg.rate (by grind)
  unfold update
  simp only [r1, h3, Option.getD_some]
  split
  · obtain ⟨c', r'', q1, q2, -⟩ := resolve_first cfg.period {} (.inl rfl) y
    simp only [q1]
    obtain ⟨t', s', e1, e2, e3⟩ := estimate_spec cfg (y :: past)
      { s with
        resolver := r''
        delay := ((y.src + c - (k.src + c)) - (y.arrival - k.arrival)).abs
        resyncs := s.resyncs + 1 } c' y y q2 (by simp) (by simp) Rat.le_refl
    exact ⟨t', s', e1, e2, by rcases e3 with e3 | e3 <;> grind⟩
  · obtain ⟨t', s', e1, e2, e3⟩ := estimate_spec cfg (y :: past)
      { s with
        resolver := r'
        delay := ((y.src + c - (k.src + c)) - (y.arrival - k.arrival)).abs } c k y r2 (by simp [h2]) (by simp) (by grind)
    exact ⟨t', s', e1, e2, by rcases e3 with e3 | e3 <;> grind⟩

theorem run_spec (cfg : Config) (hg : GoodConfig cfg) (R : Sample → Sample → Prop) (xs : List Sample) :
    ∀ (past : List Sample) (s : Estimator) (x : Sample)
    (t : Rat), After cfg past s x t → Chain cfg.period x xs → SourceUp (x :: xs) → (∀ y ∈ xs, R y y) → xs.Pairwise R →
    (∀ k ∈ past, ∀ y ∈ xs, R k y) →
    ∃ ts : List Rat, (run cfg s (xs.map (Sample.seen cfg.period))).1 = ts.map .ok ∧ ts.length = xs.length ∧
      (t :: ts).Pairwise (· ≤ ·) ∧
      ∀ yt ∈ xs.zip ts, ∃ s' past', After cfg past' s' yt.1 yt.2 ∧ ∀ k ∈ past', R k yt.1 := by
  induction xs with
  | nil => intro past s x t _ _ _ _ _ _; exact ⟨[], rfl, rfl, by simp, by simp⟩
  | cons y ys ih =>
    intro past s x t h hc hs hrefl hR hpast
    have hxy : x.src ≤ y.src := by
      have := List.rel_of_pairwise_cons hs (a' := y) (by simp)
      exact this
    obtain ⟨t', s', u1, u2, u3⟩ := update_next cfg hg past s x y t h hc.1 hxy
    obtain ⟨ts, r1, r2, r3, r4⟩ := ih (y :: past) s' y t' u2 hc.2 (List.Pairwise.of_cons hs)
      (fun z hz => hrefl z (List.mem_cons_of_mem _ hz)) (List.Pairwise.of_cons hR) (by
        intro k hk z hz
        rcases List.mem_cons.1 hk with rfl | hk
        · exact List.rel_of_pairwise_cons hR hz
        · exact hpast k hk z (List.mem_cons_of_mem _ hz))
    refine ⟨t' :: ts, ?_, by simp [r2], ?_, ?_⟩
    · simp only [List.map_cons, run, Sample.seen, u1]
      rw [← r1]
    · rw [List.pairwise_cons] at r3 ⊢
      refine ⟨?_, List.pairwise_cons.2 r3⟩
      intro a ha
      rcases List.mem_cons.1 ha with rfl | ha
      · exact u3
      · exact Rat.le_trans u3 (r3.1 a ha)
    · intro yt hyt
      rw [List.zip_cons_cons, List.mem_cons] at hyt
      rcases hyt with hyt | hyt
      · subst hyt
        refine ⟨s', y :: past, u2, ?_⟩
        intro k hk
        rcases List.mem_cons.1 hk with rfl | hk
        · exact hrefl _ (by simp)
        · exact hpast k hk y (by simp)
      · exact r4 yt hyt

/-- For every history in which the clocks do not run backwards (and disagree by less than half an overflow period between
messages): no update fails, the estimates never decrease, resynchronisations included, and none exceeds the arrival time by
more than the fixed delay. -/
theorem C54_sane_partial (cfg : Config) (hg : GoodConfig cfg) (x : Sample) (xs : List Sample) (hc : Chain cfg.period x xs)
    (hs : SourceUp (x :: xs)) :
    ∃ ts : List Rat, (run cfg {} ((x :: xs).map (Sample.seen cfg.period))).1 = ts.map .ok ∧ ts.length = (x :: xs).length ∧
      ts.Pairwise (· ≤ ·) ∧ ∀ yt ∈ (x :: xs).zip ts, yt.2 ≤ yt.1.arrival + cfg.fixedDelay := by
  obtain ⟨s, h1, h2⟩ := update_first cfg hg x
  obtain ⟨ts, r1, r2, r3, r4⟩ := run_spec cfg hg (fun _ _ => True) xs [x] s x _ h2 hc hs (fun _ _ => trivial)
    (List.pairwise_of_forall fun _ _ => trivial) (fun _ _ _ _ => trivial)
  refine ⟨(x.arrival + cfg.fixedDelay) :: ts, ?_, by simp [r2], r3, ?_⟩
  · simp only [List.map_cons, run, Sample.seen, h1]
    rw [← r1]
  · intro yt hyt
    rw [List.zip_cons_cons, List.mem_cons] at hyt
    rcases hyt with rfl | hyt
    · exact Rat.le_refl
    · obtain ⟨s', _, ⟨c, k, h⟩, -⟩ := r4 yt hyt
      exact h.2.2.2.2.2

/-- And if the assumptions of the estimator hold, no estimate is earlier than the event (they are later by the fixed delay at
least). -/
theorem C54_not_early (cfg : Config) (hg : GoodConfig cfg) (x : Sample) (xs : List Sample) (hc : Chain cfg.period x xs)
    (hs : SourceUp (x :: xs)) (ha : Assumptions cfg.rate (x :: xs)) :
    ∃ ts : List Rat, (run cfg {} ((x :: xs).map (Sample.seen cfg.period))).1 = ts.map .ok ∧ ts.length = (x :: xs).length ∧
      ∀ yt ∈ (x :: xs).zip ts, yt.1.event + cfg.fixedDelay ≤ yt.2 := by
  obtain ⟨s, h1, h2⟩ := update_first cfg hg x
  obtain ⟨ts, r1, r2, r3, r4⟩ := run_spec cfg hg
    (fun k y => k.event ≤ k.arrival ∧ y.event - k.event ≤ (1 + cfg.rate) * (y.src - k.src))
    xs [x] s x _ h2 hc hs (fun y hy => ⟨ha.latency y (List.mem_cons_of_mem _ hy), by grind⟩)
    ((List.Pairwise.of_cons ha.rate).imp_of_mem fun hk _ h => ⟨ha.latency _ (List.mem_cons_of_mem _ hk), h⟩)
    (by
      intro k hk y hy
      rw [List.mem_singleton] at hk
      subst hk
      exact ⟨ha.latency _ List.mem_cons_self, List.rel_of_pairwise_cons ha.rate hy⟩)
  refine ⟨(x.arrival + cfg.fixedDelay) :: ts, ?_, by simp [r2], ?_⟩
  · simp only [List.map_cons, run, Sample.seen, h1]
    rw [← r1]
  · intro yt hyt
    rw [List.zip_cons_cons, List.mem_cons] at hyt
    rcases hyt with rfl | hyt
    · have := ha.latency x List.mem_cons_self
      grind
    · obtain ⟨s', past', ⟨c, k, a1, a2, a3, a4, a5, a6⟩, hR⟩ := r4 yt hyt
      obtain ⟨b1, b2⟩ := hR k a2
      grind

/-- C54 in full: the first part. -/
def C54_statement : Prop :=
  ∀ (rate period fixedDelay maxPhase : Option Rat) (cfg : Config), mkConfig rate period fixedDelay maxPhase = .ok cfg →
    ∀ (x : Sample) (xs : List Sample), Chain cfg.period x xs → SourceUp (x :: xs) →
    ∀ ts : List Rat, (run cfg {} ((x :: xs).map (Sample.seen cfg.period))).1 = ts.map .ok →
      ∀ yt ∈ (x :: xs).zip ts, yt.2 ≤ yt.1.arrival

/-- The arguments of the constructor: what is left out or zero gets its default, positive numbers are used, negative ones refused. -/
theorem C54_arguments (rate period delay phase : Option Rat) :
    mkConfig none none none none = .ok ⟨none, 1 / 5000, 0, 1⟩ ∧
    mkConfig (some 0) period delay phase = mkConfig none period delay phase ∧
    mkConfig rate (some 0) delay phase = mkConfig rate none delay phase ∧
    mkConfig rate period (some 0) phase = mkConfig rate period none phase ∧
    mkConfig rate period delay (some 0) = mkConfig rate period delay none ∧
    (∀ r p d m : Rat, 0 < r → 0 < p → 0 < d → 0 < m → mkConfig (some r) (some p) (some d) (some m) = .ok ⟨some p, r, d, m⟩) ∧
    (∀ x : Rat, x < 0 → mkConfig (some x) period delay phase = .error .valueError ∧
      mkConfig rate (some x) delay phase = .error .valueError ∧ mkConfig rate period (some x) phase = .error .valueError ∧
      mkConfig rate period delay (some x) = .error .valueError) := by
  refine ⟨by decide +kernel, rfl, ?_, rfl, rfl, ?_, ?_⟩
  · simp [mkConfig]
  · intro r p d m hr hp hd hm
    have : r ≠ 0 ∧ p ≠ 0 ∧ d ≠ 0 ∧ m ≠ 0 ∧ ¬ r < 0 ∧ ¬ p ≤ 0 ∧ ¬ d < 0 ∧ ¬ m ≤ 0 := by grind
    simp [mkConfig, orElse, this]
  · intro x hx
    have : x ≠ 0 ∧ x ≤ 0 := by grind
    refine ⟨?_, ?_, ?_, ?_⟩
    · simp [mkConfig, orElse, this, hx]
    · simp only [mkConfig, if_neg this.1, if_pos this.2]
      split
      · rfl
      split
      · rfl
      split <;> rfl
    · simp [mkConfig, orElse, this, hx]
    · simp [mkConfig, orElse, this]

/-- The fixed delay has the wrong sign: the estimate for the first message is later than its arrival by the fixed delay. -/
theorem C54_exceeds (cfg : Config) (hg : GoodConfig cfg) (x : Sample) :
    (update cfg {} (x.shown cfg.period) x.arrival).1 = .ok (x.arrival + cfg.fixedDelay) := by
  obtain ⟨s, h1, -⟩ := update_first cfg hg x
  rw [h1]

theorem C54_counterexample : ¬ C54_statement := by
  intro h
  have := h none none (some (1 / 10000)) none ⟨none, 200 / 1000000, 1 / 10000, 1⟩ (by decide +kernel) ⟨5, 0, 100, 99⟩ [] trivial
    (by simp [SourceUp]) [1000001 / 10000] (by decide +kernel) (⟨5, 0, 100, 99⟩, 1000001 / 10000) (by simp)
  revert this
  decide +kernel

/-- So without a fixed delay the claim holds in full. -/
theorem C54_no_delay_partial (cfg : Config) (hg : GoodConfig cfg) (h0 : cfg.fixedDelay = 0) (x : Sample) (xs : List Sample)
    (hc : Chain cfg.period x xs) (hs : SourceUp (x :: xs)) (ha : Assumptions cfg.rate (x :: xs)) :
    ∃ ts : List Rat, (run cfg {} ((x :: xs).map (Sample.seen cfg.period))).1 = ts.map .ok ∧ ts.length = (x :: xs).length ∧
      ts.Pairwise (· ≤ ·) ∧ ∀ yt ∈ (x :: xs).zip ts, yt.1.event ≤ yt.2 ∧ yt.2 ≤ yt.1.arrival := by
  obtain ⟨ts, a1, a2, a3, a4⟩ := C54_sane_partial cfg hg x xs hc hs
  obtain ⟨ts', b1, b2, b3⟩ := C54_not_early cfg hg x xs hc hs ha
  have : ts = ts' := by
    rw [a1] at b1
    exact (List.map_inj_right (fun _ _ h => by injection h)).1 b1
  subst this
  refine ⟨ts, a1, a2, a3, fun yt h => ?_⟩
  have h1 := a4 yt h
  have h2 := b3 yt h
  rw [h0] at h1 h2
  grind

/-- What the following messages are compared with: a message that is taken at its arrival time, also if that is exactly what was expected, and else what it
was before. -/
theorem C54_reference (cfg : Config) (s : Estimator) (source target : Rat) (t : Rat) (ht : (update cfg s source target).1 = .ok t) :
    (t = target + cfg.fixedDelay → ∃ time, (update cfg s source target).2.pq = some (time, target)) ∧
    (t ≠ target + cfg.fixedDelay → (update cfg s source target).2.pq = s.pq ∧ s.pq ≠ none ∧ t < target + cfg.fixedDelay) := by
  have hest : ∀ (s : Estimator) (p q pi : Rat), (estimate cfg s p q pi target).1 = .ok t →
      (t = target + cfg.fixedDelay → (estimate cfg s p q pi target).2.pq = some (pi, target)) ∧
      (t ≠ target + cfg.fixedDelay → (estimate cfg s p q pi target).2.pq = some (p, q) ∧ t < target + cfg.fixedDelay) := by
    intro s p q pi h
    unfold estimate at h ⊢
    split at h
    · exact nomatch h
    · rename_i hlt
      simp only [if_neg hlt] at h ⊢
      split at h
      · rename_i hle
        simp only [if_pos hle]
        injection h with h
        exact ⟨fun _ => by simp, fun hn => absurd (by grind) hn⟩
      · rename_i hle
        simp only [if_neg hle]
        injection h with h
        refine ⟨fun he => absurd ?_ hle, fun _ => ⟨by simp, ?_⟩⟩
        · grind
        · grind
  unfold update at ht ⊢
  cases hr : resolve cfg.period s.resolver source target with
  | mk a r =>
    cases a with
    | error e => rw [hr] at ht; exact nomatch ht
    | ok pi =>
      rw [hr] at ht
      simp only at ht ⊢
      by_cases hm : cfg.maxPhase < ((pi - (s.pq.getD (pi, target)).1) - (target - (s.pq.getD (pi, target)).2)).abs
      · simp only [if_pos hm] at ht ⊢
        cases hr' : resolve cfg.period {} source target with
        | mk a' r' =>
          cases a' with
          | error e => rw [hr'] at ht; exact nomatch ht
          | ok pi' =>
            rw [hr'] at ht
            simp only at ht ⊢
            have h1 := hest _ _ _ _ ht
            refine ⟨fun he => ⟨_, h1.1 he⟩, fun hn => absurd ?_ hn⟩
            have hn : ¬ pi' < pi' := Rat.lt_irrefl
            simp only [estimate, if_neg hn] at ht
            split at ht
            · injection ht with ht; grind
            · injection ht with ht; grind
      · simp only [if_neg hm] at ht ⊢
        have h1 := hest _ _ _ _ ht
        refine ⟨fun he => ⟨_, h1.1 he⟩, fun hn => ?_⟩
        obtain ⟨h2, h3⟩ := h1.2 hn
        cases hpq : s.pq with
        | some pq => rw [hpq] at h2; exact ⟨h2, (fun h => nomatch h), h3⟩
        | none =>
          rw [hpq] at ht
          exfalso
          have hx : ¬ pi < pi := Rat.lt_irrefl
          simp only [Option.getD_none, estimate, if_neg hx] at ht
          split at ht
          · injection ht with ht; grind
          · injection ht with ht; grind

/-- The statistics: an update that returns has counted a resynchronisation just if the estimated delay that it leaves is above the limit; the delay is
how much the two clocks disagree on the time since the reference. After a resynchronisation the arrival time is all there is to go by. -/
theorem C54_statistics (cfg : Config) (s : Estimator) (source target : Rat) (t : Rat) (ht : (update cfg s source target).1 = .ok t) :
    (update cfg s source target).2.resyncs = s.resyncs + (if cfg.maxPhase < (update cfg s source target).2.delay then 1 else 0) ∧
    (∀ p q, s.pq = some (p, q) → ∃ time, (resolve cfg.period s.resolver source target).1 = .ok time ∧
      (update cfg s source target).2.delay = ((time - p) - (target - q)).abs) ∧
    (s.pq = none → (update cfg s source target).2.delay = 0) ∧
    (cfg.maxPhase < (update cfg s source target).2.delay → t = target + cfg.fixedDelay) := by
  have hest : ∀ (s : Estimator) (p q pi qi : Rat), (estimate cfg s p q pi qi).2.resyncs = s.resyncs ∧ (estimate cfg s p q pi qi).2.delay = s.delay := by
    intro s p q pi qi
    unfold estimate
    split
    · exact ⟨rfl, rfl⟩
    · simp only
      split <;> exact ⟨rfl, rfl⟩
  unfold update at ht ⊢
  cases hr : resolve cfg.period s.resolver source target with
  | mk a r =>
    cases a with
    | error e => rw [hr] at ht; exact nomatch ht
    | ok pi =>
      rw [hr] at ht
      simp only at ht ⊢
      have hd : (∀ p q, s.pq = some (p, q) → ∃ time, (Except.ok pi : Except Err Rat) = .ok time ∧
          ((pi - (s.pq.getD (pi, target)).1) - (target - (s.pq.getD (pi, target)).2)).abs = ((time - p) - (target - q)).abs) ∧
          (s.pq = none → ((pi - (s.pq.getD (pi, target)).1) - (target - (s.pq.getD (pi, target)).2)).abs = 0) := by
        refine ⟨fun p q h => ⟨pi, rfl, by rw [h]; rfl⟩, fun h => ?_⟩
        rw [h]
        simp only [Option.getD_none]
        rw [Rat.sub_self, Rat.sub_self, Rat.sub_self]
        rfl
      by_cases hm : cfg.maxPhase < ((pi - (s.pq.getD (pi, target)).1) - (target - (s.pq.getD (pi, target)).2)).abs
      · simp only [if_pos hm] at ht ⊢
        cases hr' : resolve cfg.period {} source target with
        | mk a' r' =>
          cases a' with
          | error e => rw [hr'] at ht; exact nomatch ht
          | ok pi' =>
            rw [hr'] at ht
            simp only at ht ⊢
            rw [(hest _ _ _ _ _).1, (hest _ _ _ _ _).2, if_pos hm]
            refine ⟨rfl, hd.1, hd.2, fun _ => ?_⟩
            have hn : ¬ pi' < pi' := Rat.lt_irrefl
            simp only [estimate, if_neg hn] at ht
            split at ht
            · injection ht with ht; grind
            · injection ht with ht; grind
      · simp only [if_neg hm] at ht ⊢
        rw [(hest _ _ _ _ _).1, (hest _ _ _ _ _).2, if_neg hm]
        exact ⟨rfl, hd.1, hd.2, fun h => absurd h hm⟩

/-- Messages of a clock that overflows every 60 s, with different latencies; the last one makes the estimator start over. -/
def history : List Sample := [⟨70, 1, 1000, 999⟩, ⟨71, 1, 1000 + 1 / 2, 1000⟩, ⟨73, 1, 1003, 1002⟩, ⟨100, 1, 1029, 1029⟩, ⟨125, 2, 1066, 1054⟩]

example : Chain (some 60) history[0] history.tail ∧ SourceUp history ∧ Assumptions (1 / 1000) history := by
  refine ⟨?_, by simp [SourceUp, history]; decide +kernel, ⟨by simp [history]; decide +kernel, by simp [history]; decide +kernel⟩⟩
  simp only [history, Chain, Follows, List.tail_cons, and_true]
  refine ⟨⟨by decide +kernel, ?_⟩, ⟨by decide +kernel, ?_⟩, ⟨by decide +kernel, ?_⟩, by decide +kernel, ?_⟩ <;>
    (intro p hp; injection hp with hp; subst hp; decide +kernel)

example : (run ⟨some 60, 1 / 1000, 0, 5⟩ {} (history.map (Sample.seen (some 60)))).1 =
    [.ok 1000, .ok (1000 + 1 / 2), .ok (1000 + 1 / 2 + 2 * (1 + 1 / 1000)), .ok 1029, .ok 1066] ∧
    (run ⟨some 60, 1 / 1000, 0, 5⟩ {} (history.map (Sample.seen (some 60)))).2.resyncs = 1 := by decide +kernel

end Timestamps
end Dronecan
