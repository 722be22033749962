import Verif.Model.FloatStamps
import Verif.Props.Timestamps
import Verif.Props.Actuators

/-!
# Time stamps with the rounding of floats (C160)
-/

namespace Dronecan
namespace FloatStamps
open Timestamps (Resolver Estimator Config Sample SourceUp Assumptions)
open Actuators (fl_mono_all fl_near)

/-! ## Specification -/

/-- The samples are floats. -/
def Floats (xs : List Sample) : Prop := ∀ x ∈ xs, fl x.src = x.src ∧ fl x.arrival = x.arrival

/-- Neither clock goes back. -/
def Forward (xs : List Sample) : Prop := xs.Pairwise fun x y => x.src ≤ y.src ∧ x.arrival ≤ y.arrival

/-- What the estimator sees: the clock of the source never overflows. -/
def seen (xs : List Sample) : List (Rat × Rat) := xs.map fun x => (x.src, x.arrival)

/-- No estimate is later than the arrival. -/
def C160_statement : Prop := ∀ (dec : Rat → Rat) (cfg : Config) (xs : List Sample) (ts : List Rat), cfg.period = none → cfg.fixedDelay = 0 →
  0 ≤ cfg.rate → 0 < cfg.maxPhase → Floats xs → Forward xs → (run dec cfg {} (seen xs)).1 = ts.map .ok → ∀ yt ∈ xs.zip ts, yt.2 ≤ yt.1.arrival

/-- Estimates do not decrease. -/
def C160_order_statement : Prop := ∀ (dec : Rat → Rat) (cfg : Config) (xs : List Sample) (ts : List Rat), cfg.period = none → cfg.fixedDelay = 0 →
  0 ≤ cfg.rate → 0 < cfg.maxPhase → Floats xs → Forward xs → (run dec cfg {} (seen xs)).1 = ts.map .ok → ts.Pairwise (· ≤ ·)

/-- The limits: neither clock exceeds `B`, and the parameters are not extreme. -/
structure Within (B : Rat) (cfg : Config) (xs : List Sample) : Prop where
  samples : ∀ x ∈ xs, 0 ≤ x.src ∧ x.src ≤ B ∧ 0 ≤ x.arrival ∧ x.arrival ≤ B
  rate0 : 0 ≤ cfg.rate
  rate1 : cfg.rate ≤ 1 / 8
  delay0 : 0 ≤ cfg.fixedDelay
  delay1 : cfg.fixedDelay ≤ B / 8
  period : cfg.period = none

/-- The unit of the error: for `B` = 2^31 seconds, which is until 2038 in real time, less than half a microsecond. -/
def ulp (B : Rat) : Rat := B / 2 ^ 52

/-! ## Errors -/

theorem near {B x : Rat} (h1 : -(2 * B) ≤ x) (h2 : x ≤ 2 * B) : -ulp B ≤ fl x - x ∧ fl x - x ≤ ulp B := by
  have := fl_near h1 h2
  have e : ulp B = 2 * B * (1 / 9007199254740992) := by
    simp only [ulp]
    rw [show ((2 : Rat) ^ 52) = 4503599627370496 by decide +kernel]
    grind
  rw [e]
  exact this

theorem ulp_small {B : Rat} (h : 0 ≤ B) : 0 ≤ ulp B ∧ ulp B * 1000 ≤ B := by
  have e : ulp B = B * (1 / 4503599627370496) := by
    simp only [ulp]
    rw [show ((2 : Rat) ^ 52) = 4503599627370496 by decide +kernel]
    grind
  rw [e]
  constructor <;> grind

/-- The estimate if the sample becomes the reference. -/
theorem new_near {B f pi qi : Rat} (hp0 : 0 ≤ pi) (hp : pi ≤ B) (hq0 : 0 ≤ qi) (hq : qi ≤ B) (hf0 : 0 ≤ f) (hf : f ≤ B / 8) :
    qi + f ≤ fl (pi - fl (fl (pi - qi) - f)) + 3 * ulp B ∧ fl (pi - fl (fl (pi - qi) - f)) ≤ qi + f + 3 * ulp B := by
  obtain ⟨u0, u1⟩ := ulp_small (B := B) (by grind)
  have e1 := near (B := B) (x := pi - qi) (by grind) (by grind)
  have e2 := near (B := B) (x := fl (pi - qi) - f) (by grind) (by grind)
  have e3 := near (B := B) (x := pi - fl (fl (pi - qi) - f)) (by grind) (by grind)
  constructor <;> grind

/-- The estimate if the reference stays. -/
theorem old_near {B : Rat} {cfg : Config} {p q pi qi : Rat} (hp0 : 0 ≤ p) (hpp : p ≤ pi) (hp : pi ≤ B) (hq0 : 0 ≤ q) (hq : q ≤ B) (hqi0 : 0 ≤ qi)
    (hqi : qi ≤ B) (hr0 : 0 ≤ cfg.rate) (hr : cfg.rate ≤ 1 / 8) (hf0 : 0 ≤ cfg.fixedDelay) (hf : cfg.fixedDelay ≤ B / 8)
    (hn : newOffset cfg pi qi < offset cfg p q pi) :
    q + (1 + cfg.rate) * (pi - p) + cfg.fixedDelay ≤ fl (pi - offset cfg p q pi) + 6 * ulp B ∧
      fl (pi - offset cfg p q pi) ≤ qi + cfg.fixedDelay + 3 * ulp B := by
  obtain ⟨u0, u1⟩ := ulp_small (B := B) (by grind)
  have hnew := new_near (B := B) (f := cfg.fixedDelay) (by grind) hp hqi0 hqi hf0 hf
  have hmono := fl_mono_all (p := pi - offset cfg p q pi) (q := pi - newOffset cfg pi qi) (by grind)
  have e0 := near (B := B) (x := pi - qi) (by grind) (by grind)
  have e0' := near (B := B) (x := fl (pi - qi) - cfg.fixedDelay) (by grind) (by grind)
  refine ⟨?_, by simp only [newOffset] at hmono; grind⟩
  simp only [newOffset, offset] at *
  have e1 := near (B := B) (x := p - q) (by grind) (by grind)
  have e2 := near (B := B) (x := pi - p) (by grind) (by grind)
  have d0 : 0 ≤ fl (pi - p) := GnssTools.fl_nonneg (by grind)
  generalize fl (pi - p) = d at *
  have m0 := Rat.mul_nonneg hr0 d0
  have m1 := Rat.mul_nonneg (a := 1 / 8 - cfg.rate) (b := d) (by grind) d0
  have m2 := Rat.mul_nonneg (a := cfg.rate) (b := d - (pi - p) + ulp B) hr0 (by grind)
  have m3 := Rat.mul_nonneg (a := 1 / 8 - cfg.rate) (b := ulp B) (by grind) u0
  have e3 := near (B := B) (x := cfg.rate * d) (by grind) (by grind)
  have n0 : 0 ≤ fl (cfg.rate * d) := GnssTools.fl_nonneg m0
  have e4 := near (B := B) (x := fl (p - q) - fl (cfg.rate * d)) (by grind) (by grind)
  have e5 := near (B := B) (x := fl (fl (p - q) - fl (cfg.rate * d)) - cfg.fixedDelay) (by grind) (by grind)
  have e6 := near (B := B) (x := pi - fl (fl (fl (p - q) - fl (cfg.rate * d)) - cfg.fixedDelay)) (by grind) (by grind)
  grind

/-- With the same reference, later samples have later estimates. -/
theorem old_mono {cfg : Config} {p q pi pj : Rat} (hr0 : 0 ≤ cfg.rate) (h : pi ≤ pj) : fl (pi - offset cfg p q pi) ≤ fl (pj - offset cfg p q pj) := by
  refine fl_mono_all ?_
  have : offset cfg p q pj ≤ offset cfg p q pi := by
    refine fl_mono_all ?_
    have a := fl_mono_all (p := pi - p) (q := pj - p) (by grind)
    have b := fl_mono_all (Rat.mul_le_mul_of_nonneg_left a hr0)
    have c := fl_mono_all (p := fl (p - q) - fl (cfg.rate * fl (pj - p))) (q := fl (p - q) - fl (cfg.rate * fl (pi - p))) (by grind)
    grind
  grind

/-! ## One sample -/

theorem update_spec (dec : Rat → Rat) (cfg : Config) (hp : cfg.period = none) (s : Estimator) (x : Sample) (hx : fl x.src = x.src)
    (hb : ∀ p q, s.pq = some (p, q) → p ≤ x.src) : ∃ t s', update dec cfg s x.src x.arrival = (.ok t, s') ∧
      ((s'.pq = some (x.src, x.arrival) ∧ (t = fl (x.src - newOffset cfg x.src x.arrival) ∨
          (newOffset cfg x.src x.arrival < offset cfg x.src x.arrival x.src ∧ t = fl (x.src - offset cfg x.src x.arrival x.src)))) ∨
       (∃ p q, s.pq = some (p, q) ∧ s'.pq = some (p, q) ∧ newOffset cfg x.src x.arrival < offset cfg p q x.src ∧
          t = fl (x.src - offset cfg p q x.src))) := by
  have hres : ∀ r, resolve dec cfg.period r x.src x.arrival = (.ok x.src, ⟨some x.src, x.src, x.arrival⟩) := by
    intro r
    rw [hp]
    obtain ⟨time, a, b⟩ := r
    cases time <;> rfl
  have hnew : ∀ s : Estimator, ∃ t s', estimate cfg s x.src x.arrival x.src x.arrival = (.ok t, s') ∧ s'.pq = some (x.src, x.arrival) ∧
      (t = fl (x.src - newOffset cfg x.src x.arrival) ∨
        (newOffset cfg x.src x.arrival < offset cfg x.src x.arrival x.src ∧ t = fl (x.src - offset cfg x.src x.arrival x.src))) := by
    intro s
    simp only [estimate, Rat.lt_irrefl, if_false]
    split
    · exact ⟨_, _, rfl, rfl, .inl rfl⟩
    · exact ⟨_, _, rfl, rfl, .inr ⟨by grind, rfl⟩⟩
  simp only [update, hres, hx]
  cases hpq : s.pq with
  | none =>
    simp only [Option.getD_none]
    split
    · obtain ⟨t, s', h1, h2⟩ := hnew _
      exact ⟨t, s', h1, .inl h2⟩
    · obtain ⟨t, s', h1, h2⟩ := hnew _
      exact ⟨t, s', h1, .inl h2⟩
  | some pq =>
    obtain ⟨p, q⟩ := pq
    simp only [Option.getD_some]
    split
    · obtain ⟨t, s', h1, h2⟩ := hnew _
      exact ⟨t, s', h1, .inl h2⟩
    · have := hb p q hpq
      simp only [estimate]
      rw [if_neg (by grind)]
      split
      · exact ⟨_, _, rfl, .inl ⟨rfl, .inl rfl⟩⟩
      · exact ⟨_, _, rfl, .inr ⟨p, q, rfl, rfl, by grind, rfl⟩⟩

/-! ## Histories -/

/-- What is known after the samples of `past`, which had these estimates. -/
structure Inv (B : Rat) (cfg : Config) (past : List (Sample × Rat)) (s : Estimator) : Prop where
  first : past = [] → s.pq = none
  bound : ∀ yt ∈ past, yt.2 ≤ yt.1.arrival + cfg.fixedDelay + 3 * ulp B
  ref : past ≠ [] → ∃ k ∈ past.map (·.1), s.pq = some (k.src, k.arrival) ∧
    ∀ yt ∈ past, yt.2 ≤ k.arrival + cfg.fixedDelay + 3 * ulp B ∨ yt.2 = fl (yt.1.src - offset cfg k.src k.arrival yt.1.src)

theorem run_spec (dec : Rat → Rat) (B : Rat) (cfg : Config) (xs : List Sample) : ∀ (past : List (Sample × Rat)) (s : Estimator), Inv B cfg past s →
    Within B cfg (past.map (·.1) ++ xs) → Floats xs → Forward (past.map (·.1) ++ xs) → Assumptions cfg.rate (past.map (·.1) ++ xs) →
    ∃ ts : List Rat, (run dec cfg s (seen xs)).1 = ts.map .ok ∧ ts.length = xs.length ∧
      (∀ yt ∈ xs.zip ts, yt.2 ≤ yt.1.arrival + cfg.fixedDelay + 3 * ulp B ∧ yt.1.event + cfg.fixedDelay ≤ yt.2 + 6 * ulp B) ∧
      (∀ yt ∈ past, ∀ t ∈ ts, yt.2 ≤ t + 9 * ulp B) ∧ ts.Pairwise (fun a b => a ≤ b + 9 * ulp B) := by
  induction xs with
  | nil => intro past s _ _ _ _ _; exact ⟨[], rfl, rfl, by simp, by simp, .nil⟩
  | cons x xs ih =>
    intro past s hi hw hfl hf ha
    have hmem : x ∈ past.map (·.1) ++ x :: xs := by simp
    obtain ⟨x0, x1, y0, y1⟩ := hw.samples x hmem
    obtain ⟨u0, u1⟩ := ulp_small (B := B) (by grind)
    have hbefore : ∀ k ∈ past.map (·.1), k.src ≤ x.src ∧ k.arrival ≤ x.arrival := by
      intro k hk
      exact (List.pairwise_append.mp hf).2.2 k hk x (by simp)
    have hrate : ∀ k ∈ past.map (·.1), x.event - k.event ≤ (1 + cfg.rate) * (x.src - k.src) := by
      intro k hk
      exact (List.pairwise_append.mp ha.rate).2.2 k hk x (by simp)
    have hlat := ha.latency x hmem
    obtain ⟨t, s', hu, hc⟩ := update_spec dec cfg hw.period s x (hfl x (by simp)).1 (by
      intro p q hpq
      by_cases hp : past = []
      · rw [hi.first hp] at hpq
        cases hpq
      · obtain ⟨k, hk, h1, -⟩ := hi.ref hp
        rw [hpq] at h1
        injection h1 with h1
        injection h1 with h1 h2
        rw [h1]
        exact (hbefore k hk).1)
    have key : (t ≤ x.arrival + cfg.fixedDelay + 3 * ulp B ∧ x.event + cfg.fixedDelay ≤ t + 6 * ulp B) ∧
        (∀ yt ∈ past, yt.2 ≤ t + 9 * ulp B) ∧ ∃ k ∈ (past ++ [(x, t)]).map (·.1), s'.pq = some (k.src, k.arrival) ∧
        ∀ yt ∈ past ++ [(x, t)], yt.2 ≤ k.arrival + cfg.fixedDelay + 3 * ulp B ∨ yt.2 = fl (yt.1.src - offset cfg k.src k.arrival yt.1.src) := by
      rcases hc with ⟨h1, h2⟩ | ⟨p, q, h1, h2, h3, h4⟩
      · have hb : t ≤ x.arrival + cfg.fixedDelay + 3 * ulp B ∧ x.arrival + cfg.fixedDelay ≤ t + 6 * ulp B := by
          rcases h2 with h2 | ⟨h2, h3⟩
          · have := new_near (B := B) (f := cfg.fixedDelay) x0 x1 y0 y1 hw.delay0 hw.delay1
            rw [h2]
            simp only [newOffset]
            constructor <;> grind
          · have := old_near (B := B) x0 Rat.le_refl x1 y0 y1 y0 y1 hw.rate0 hw.rate1 hw.delay0 hw.delay1 h2
            rw [← h3] at this
            refine ⟨this.2, ?_⟩
            have e : (1 + cfg.rate) * (x.src - x.src) = 0 := by grind
            grind
        refine ⟨⟨hb.1, by grind⟩, ?_, x, by simp, h1, ?_⟩
        · intro yt hyt
          have := hi.bound yt hyt
          have := (hbefore yt.1 (List.mem_map_of_mem hyt)).2
          grind
        · intro yt hyt
          rw [List.mem_append, List.mem_singleton] at hyt
          rcases hyt with hyt | rfl
          · have := hi.bound yt hyt
            have := (hbefore yt.1 (List.mem_map_of_mem hyt)).2
            exact .inl (by grind)
          · exact .inl hb.1
      · have hp : past ≠ [] := by
          intro hp
          rw [hi.first hp] at h1
          cases h1
        obtain ⟨k, hk, h5, h6⟩ := hi.ref hp
        rw [h1] at h5
        injection h5 with h5
        injection h5 with h5 h7
        subst h5 h7
        obtain ⟨k0, k1, l0, l1⟩ := hw.samples k (by simp only [List.mem_append]; exact .inl hk)
        have hkx := hbefore k hk
        have := old_near (B := B) k0 hkx.1 x1 l0 l1 y0 y1 hw.rate0 hw.rate1 hw.delay0 hw.delay1 h3
        rw [← h4] at this
        have hkr := hrate k hk
        have hkl := ha.latency k (by simp only [List.mem_append]; exact .inl hk)
        have hpos := Rat.mul_nonneg (a := 1 + cfg.rate) (b := x.src - k.src) (by have := hw.rate0; grind) (by grind)
        refine ⟨⟨this.2, by grind⟩, ?_, k, by simp only [List.map_append, List.mem_append]; exact .inl hk, h2, ?_⟩
        · intro yt hyt
          rcases h6 yt hyt with h | h
          · grind
          · have := old_mono (cfg := cfg) (p := k.src) (q := k.arrival) hw.rate0 (hbefore yt.1 (List.mem_map_of_mem hyt)).1
            rw [← h, ← h4] at this
            grind
        · intro yt hyt
          rw [List.mem_append, List.mem_singleton] at hyt
          rcases hyt with hyt | rfl
          · exact h6 yt hyt
          · exact .inr h4
    obtain ⟨k1, k2, k3⟩ := key
    have happ : (past ++ [(x, t)]).map (·.1) ++ xs = past.map (·.1) ++ x :: xs := by simp
    obtain ⟨ts, r1, r2, r3, r4, r5⟩ := ih (past ++ [(x, t)]) s' ⟨by simp, by
        intro yt hyt
        rw [List.mem_append, List.mem_singleton] at hyt
        rcases hyt with hyt | rfl
        · exact hi.bound yt hyt
        · exact k1.1, fun _ => k3⟩ (by rw [happ]; exact hw) (fun y hy => hfl y (by simp [hy])) (by rw [happ]; exact hf) (by rw [happ]; exact ha)
    refine ⟨t :: ts, ?_, by simp [r2], ?_, ?_, ?_⟩
    · show (run dec cfg s ((x.src, x.arrival) :: seen xs)).1 = _
      simp only [run, hu, r1, List.map_cons]
    · intro yt hyt
      rw [List.zip_cons_cons, List.mem_cons] at hyt
      rcases hyt with rfl | hyt
      · exact k1
      · exact r3 yt hyt
    · intro yt hyt t' ht'
      rw [List.mem_cons] at ht'
      rcases ht' with rfl | ht'
      · exact k2 yt hyt
      · exact r4 yt (by simp [hyt]) t' ht'
    · exact .cons (fun t' ht' => r4 (x, t) (by simp) t' ht') r5

/-- **C160**: up to an error that does not grow with the number of samples, no estimate is later than the arrival, estimates do not decrease, and none is
earlier than the event if the assumptions about the clocks hold. -/
theorem C160_partial (dec : Rat → Rat) (B : Rat) (cfg : Config) (xs : List Sample) (hw : Within B cfg xs) (hfl : Floats xs) (hf : Forward xs)
    (ha : Assumptions cfg.rate xs) :
    ∃ ts : List Rat, (run dec cfg {} (seen xs)).1 = ts.map .ok ∧ ts.length = xs.length ∧
      (∀ yt ∈ xs.zip ts, yt.2 ≤ yt.1.arrival + cfg.fixedDelay + 3 * ulp B ∧ yt.1.event + cfg.fixedDelay ≤ yt.2 + 6 * ulp B) ∧
      ts.Pairwise (fun a b => a ≤ b + 9 * ulp B) := by
  obtain ⟨ts, h1, h2, h3, -, h5⟩ := run_spec dec B cfg xs [] {} ⟨fun _ => rfl, by simp, fun h => absurd rfl h⟩ hw hfl hf ha
  exact ⟨ts, h1, h2, h3, h5⟩

/-- A sample of which it is not known when the event was. -/
def noEvent (x : Sample) : Sample := { x with event := 0 }

/-- **C160** without assumptions about the events. -/
theorem C160_arrival_partial (dec : Rat → Rat) (B : Rat) (cfg : Config) (xs : List Sample) (hw : Within B cfg xs) (hfl : Floats xs) (hf : Forward xs) :
    ∃ ts : List Rat, (run dec cfg {} (seen xs)).1 = ts.map .ok ∧ ts.length = xs.length ∧
      (∀ yt ∈ xs.zip ts, yt.2 ≤ yt.1.arrival + cfg.fixedDelay + 3 * ulp B) ∧ ts.Pairwise (fun a b => a ≤ b + 9 * ulp B) := by
  have hs : seen (xs.map noEvent) = seen xs := by simp [seen, noEvent]
  obtain ⟨ts, h1, h2, h3, h4⟩ := C160_partial dec B cfg (xs.map noEvent)
    ⟨by
      intro x hx
      obtain ⟨y, hy, rfl⟩ := List.mem_map.mp hx
      exact hw.samples y hy, hw.rate0, hw.rate1, hw.delay0, hw.delay1, hw.period⟩
    (by
      intro x hx
      obtain ⟨y, hy, rfl⟩ := List.mem_map.mp hx
      exact hfl y hy)
    (List.pairwise_map.mpr hf)
    ⟨by
      intro x hx
      obtain ⟨y, hy, rfl⟩ := List.mem_map.mp hx
      exact (hw.samples y hy).2.2.1, by
      refine List.pairwise_map.mpr (List.Pairwise.imp (fun {a b} h => ?_) hf)
      have := Rat.mul_nonneg (a := 1 + cfg.rate) (b := b.src - a.src) (by have := hw.rate0; grind) (by grind)
      show (0 : Rat) - 0 ≤ (1 + cfg.rate) * (b.src - a.src)
      grind⟩
  rw [hs] at h1
  refine ⟨ts, h1, by simpa using h2, ?_, h4⟩
  intro yt hyt
  have hm : (noEvent yt.1, yt.2) ∈ (xs.map noEvent).zip ts := by
    rw [List.zip_map_left]
    exact List.mem_map.mpr ⟨yt, hyt, rfl⟩
  exact (h3 _ hm).1

/-! ## Clocks that overflow -/

/-- The arithmetic of `decimal`: 28 digits. -/
def Decimal28 (dec : Rat → Rat) : Prop := ∀ x : Rat, dec x - x ≤ x.abs / 10 ^ 27 ∧ x - dec x ≤ x.abs / 10 ^ 27

theorem dec_near {dec : Rat → Rat} (hd : Decimal28 dec) {c x : Rat} (h1 : -c ≤ x) (h2 : x ≤ c) :
    -(c * (1 / 1000000000000000000000000000)) ≤ dec x - x ∧ dec x - x ≤ c * (1 / 1000000000000000000000000000) := by
  have h := hd x
  rw [show ((10 : Rat) ^ 27) = 1000000000000000000000000000 by decide +kernel] at h
  have ha : x.abs ≤ c := by
    simp only [Rat.abs]
    split <;> grind
  constructor <;> grind

theorem delay_near {B p q pi t : Rat} (p0 : 0 ≤ p) (p1 : p ≤ B) (q0 : 0 ≤ q) (q1 : q ≤ B) (i0 : 0 ≤ pi) (i1 : pi ≤ B) (t0 : 0 ≤ t) (t1 : t ≤ B) :
    (fl (fl (pi - p) - fl (t - q))).abs ≤ ((pi - p) - (t - q)).abs + 5 * ulp B ∧
    ((pi - p) - (t - q)).abs ≤ (fl (fl (pi - p) - fl (t - q))).abs + 5 * ulp B := by
  obtain ⟨u0, u1⟩ := ulp_small (B := B) (by grind)
  have e1 := near (B := B) (x := pi - p) (by grind) (by grind)
  have e2 := near (B := B) (x := t - q) (by grind) (by grind)
  have e3 := near (B := 2 * B) (x := fl (pi - p) - fl (t - q)) (by grind) (by grind)
  have e : ulp (2 * B) = 2 * ulp B := by simp only [ulp]; grind
  rw [e] at e3
  simp only [Rat.abs]
  split <;> split <;> constructor <;> grind

/-- **C160** (resynchronisation): the estimated delay is the phase error of the sample with respect to the reference `(p, q)`, up to the error. If it is too
large then the sample becomes the reference and one more resynchronisation is counted. Otherwise none is counted, and a reference that is left stays. -/
theorem C160_resync (dec : Rat → Rat) (B : Rat) (cfg : Config) (hp : cfg.period = none) (s : Estimator) (p q source target : Rat) (hs : s.pq = some (p, q))
    (hx : fl source = source) (p0 : 0 ≤ p) (p1 : p ≤ B) (q0 : 0 ≤ q) (q1 : q ≤ B) (i0 : 0 ≤ source) (i1 : source ≤ B) (t0 : 0 ≤ target) (t1 : target ≤ B) :
    ((update dec cfg s source target).2.delay - ((source - p) - (target - q)).abs).abs ≤ 5 * ulp B ∧
    (cfg.maxPhase + 5 * ulp B < ((source - p) - (target - q)).abs →
      (update dec cfg s source target).2.resyncs = s.resyncs + 1 ∧ (update dec cfg s source target).2.pq = some (source, target)) ∧
    (((source - p) - (target - q)).abs + 5 * ulp B ≤ cfg.maxPhase →
      (update dec cfg s source target).2.resyncs = s.resyncs ∧
        ((update dec cfg s source target).2.pq = some (p, q) ∨ (update dec cfg s source target).2.pq = some (source, target))) := by
  obtain ⟨d1, d2⟩ := delay_near (B := B) p0 p1 q0 q1 i0 i1 t0 t1
  have hres : ∀ r, resolve dec cfg.period r source target = (.ok source, ⟨some source, source, target⟩) := by
    intro r
    rw [hp]
    obtain ⟨time, a, b⟩ := r
    cases time <;> rfl
  have hnew : ∀ (s : Estimator) (p q : Rat), (estimate cfg s p q source target).2.delay = s.delay ∧
      (estimate cfg s p q source target).2.resyncs = s.resyncs ∧
      ((estimate cfg s p q source target).2.pq = some (p, q) ∨ (estimate cfg s p q source target).2.pq = some (source, target)) := by
    intro s p q
    simp only [estimate]
    split
    · exact ⟨rfl, rfl, .inl rfl⟩
    · split
      · exact ⟨rfl, rfl, .inr rfl⟩
      · exact ⟨rfl, rfl, .inl rfl⟩
  have hd : ∀ d e : Rat, d ≤ e + 5 * ulp B → e ≤ d + 5 * ulp B → (d - e).abs ≤ 5 * ulp B := by
    intro d e h1 h2
    simp only [Rat.abs]
    split <;> grind
  simp only [update, hres, hx, hs, Option.getD_some]
  split
  · obtain ⟨h1, h2, h3⟩ := hnew { s with
        resolver := ⟨some source, source, target⟩
        delay := (fl (fl (source - p) - fl (target - q))).abs
        resyncs := s.resyncs + 1 } source target
    rw [hs] at h1 h2 h3
    refine ⟨?_, fun _ => ⟨h2, ?_⟩, fun h => absurd h (by grind)⟩
    · rw [h1]
      exact hd _ _ d1 d2
    · rcases h3 with h | h <;> exact h
  · obtain ⟨h1, h2, h3⟩ := hnew { s with
        resolver := ⟨some source, source, target⟩
        delay := (fl (fl (source - p) - fl (target - q))).abs } p q
    rw [hs] at h1 h2 h3
    refine ⟨?_, fun h => absurd h (by grind), fun _ => ⟨h2, h3⟩⟩
    rw [h1]
    exact hd _ _ d1 d2

/-- The target clock has moved on by two seconds, the source clock by one: too much if half a second is allowed. -/
example : (update id ⟨none, 1 / 64, 0, 1 / 2⟩ ⟨{}, some (1, 10), 0, 3⟩ 2 12).2.resyncs = 4 ∧
    (update id ⟨none, 1 / 64, 0, 3 / 2⟩ ⟨{}, some (1, 10), 0, 3⟩ 2 12).2.resyncs = 3 ∧
    (update id ⟨none, 1 / 64, 0, 3 / 2⟩ ⟨{}, some (1, 10), 0, 3⟩ 2 12).2.pq = some (1, 10) := by decide +kernel

/-- **C160** (any clock): whatever happened before, an estimate is not later than the arrival, up to the fixed delay and the error. -/
theorem C160_any_partial (dec : Rat → Rat) (B : Rat) (cfg : Config) (s : Estimator) (source target t time : Rat)
    (ht : (update dec cfg s source target).1 = .ok t) (hr : (update dec cfg s source target).2.resolver.time = some time)
    (h0 : 0 ≤ fl time) (h1 : fl time ≤ B) (a0 : 0 ≤ target) (a1 : target ≤ B) (f0 : 0 ≤ cfg.fixedDelay) (f1 : cfg.fixedDelay ≤ B / 8) :
    t ≤ target + cfg.fixedDelay + 3 * ulp B := by
  have hest : ∀ (s : Estimator) (p q pi : Rat), (estimate cfg s p q pi target).1 = .ok t → 0 ≤ pi → pi ≤ B →
      t ≤ target + cfg.fixedDelay + 3 * ulp B := by
    intro s p q pi h p0 p1
    have hn := (new_near (B := B) p0 p1 a0 a1 f0 f1).2
    simp only [estimate] at h
    split at h
    · cases h
    · split at h
      · injection h with h
        rw [← h]
        exact hn
      · rename_i hlt
        injection h with h
        rw [← h]
        refine Rat.le_trans (fl_mono_all ?_) hn
        simp only [newOffset] at hlt
        grind
  have hsame : ∀ (s : Estimator) (p q pi : Rat), (estimate cfg s p q pi target).2.resolver = s.resolver := by
    intro s p q pi
    simp only [estimate]
    repeat' split
    all_goals rfl
  have htime : ∀ (r r' : Resolver) (x : Rat), resolve dec cfg.period r source target = (.ok x, r') → r'.time = some x := by
    intro r r' x h
    simp only [resolve] at h
    split at h
    · split at h
      · cases h
      · injection h with h h'
        injection h with h
        rw [← h', ← h]
    · injection h with h h'
      injection h with h
      rw [← h', ← h]
  simp only [update] at ht hr
  generalize hx : resolve dec cfg.period s.resolver source target = x at ht hr
  obtain ⟨x, r⟩ := x
  cases x with
  | error e => cases ht
  | ok x =>
    simp only at ht hr
    split at ht
    · rename_i hc
      rw [if_pos hc] at hr
      generalize hy : resolve dec cfg.period {} source target = y at ht hr
      obtain ⟨y, r'⟩ := y
      cases y with
      | error e => cases ht
      | ok y =>
        simp only at ht hr
        rw [hsame] at hr
        rw [htime _ _ _ hy] at hr
        injection hr with hr
        subst hr
        exact hest _ _ _ _ ht h0 h1
    · rename_i hc
      rw [if_neg hc, hsame] at hr
      rw [htime _ _ _ hx] at hr
      injection hr with hr
      subst hr
      exact hest _ _ _ _ ht h0 h1

/-- The resolver alone. -/
def resolveAll (dec : Rat → Rat) (period : Option Rat) (r : Resolver) : List (Rat × Rat) → List (Except Err Rat)
  | [] => []
  | x :: xs => (resolve dec period r x.1 x.2).1 :: resolveAll dec period (resolve dec period r x.1 x.2).2 xs

/-- Consecutive messages: the arrival times do not decrease, and the clocks disagree by less than half an overflow period, less a small margin. -/
def Follows (B P : Rat) (x y : Sample) : Prop :=
  x.arrival ≤ y.arrival ∧ (y.arrival - x.arrival) - (y.src - x.src) < P / 2 - (B + P) / 2 ^ 50 ∧
    (y.src - x.src) - (y.arrival - x.arrival) < P / 2 - (B + P) / 2 ^ 50

/-- A history of such messages. -/
def Chain (B P : Rat) : Sample → List Sample → Prop
  | _, [] => True
  | x, y :: ys => Follows B P x y ∧ Chain B P y ys

/-- The samples are what a clock with period `P` shows. -/
def Shows (B P : Rat) (x : Sample) : Prop := 0 ≤ x.shown (some P) ∧ x.shown (some P) ≤ P ∧ 0 ≤ x.arrival ∧ x.arrival ≤ B ∧ x.src.abs ≤ B

theorem div_near {P c C : Rat} (hP : 0 < P) (h1 : -C ≤ c) (h2 : c ≤ C) :
    -(C * (1 / 9007199254740992)) ≤ fl (c / P) * P - c ∧ fl (c / P) * P - c ≤ C * (1 / 9007199254740992) := by
  have hz : c / P * P = c := Rat.div_mul_cancel (by grind)
  have hC : C / P * P = C := Rat.div_mul_cancel (by grind)
  generalize c / P = z at *
  generalize C / P = K at *
  subst hz hC
  have e := fl_near (q := z) (c := K) (Rat.le_of_mul_le_mul_right (c := P) (by grind) hP) (Rat.le_of_mul_le_mul_right (c := P) (by grind) hP)
  generalize fl z = w at *
  have m1 := Rat.mul_nonneg (a := w - z + K * (1 / 9007199254740992)) (b := P) (by grind) (Rat.le_of_lt hP)
  have m2 := Rat.mul_nonneg (a := K * (1 / 9007199254740992) - (w - z)) (b := P) (by grind) (Rat.le_of_lt hP)
  constructor <;> grind

/-- The number of overflows is found in spite of rounding. -/
theorem cycles_eq {B P : Rat} (hP : 0 < P) (hfP : fl P = P) {x y : Sample} (hx : Shows B P x) (hy : Shows B P y) (h : Follows B P x y) :
    0 ≤ fl (y.arrival - x.arrival) ∧
    roundHalfEven (fl (fl (fl (y.arrival - x.arrival) - fl (y.shown (some P) - x.shown (some P))) / fl P)) = y.wraps - x.wraps := by
  obtain ⟨x0, x1, x2, x3, -⟩ := hx
  obtain ⟨y0, y1, y2, y3, -⟩ := hy
  obtain ⟨h1, h2, h3⟩ := h
  rw [show ((2 : Rat) ^ 50) = 1125899906842624 by decide +kernel] at h2 h3
  refine ⟨GnssTools.fl_nonneg (by grind), ?_⟩
  rw [hfP]
  have e1 := fl_near (q := y.arrival - x.arrival) (c := B) (by grind) (by grind)
  have e2 := fl_near (q := y.shown (some P) - x.shown (some P)) (c := P) (by grind) (by grind)
  generalize fl (y.arrival - x.arrival) = a at *
  generalize fl (y.shown (some P) - x.shown (some P)) = b at *
  have e3 := fl_near (q := a - b) (c := (B + P) * 2) (by grind) (by grind)
  generalize fl (a - b) = c at *
  have hc : -((B + P) * 2 * 2) ≤ c ∧ c ≤ (B + P) * 2 * 2 := by constructor <;> grind
  -- in periods
  have hsy : y.shown (some P) = y.src - (y.wraps : Rat) * P := rfl
  have hsx : x.shown (some P) = x.src - (x.wraps : Rat) * P := rfl
  rw [hsy, hsx] at e2
  have e4 := div_near hP hc.1 hc.2
  generalize fl (c / P) = w at *
  refine Timestamps.roundHalfEven_int _ _ ?_ ?_
  · refine Rat.lt_of_mul_lt_mul_right (c := P) ?_ (Rat.le_of_lt hP)
    have e : (w - ((y.wraps - x.wraps : Int) : Rat)) * P = w * P - ((y.wraps : Rat) * P - (x.wraps : Rat) * P) := by
      rw [Rat.intCast_sub]
      grind
    rw [e]
    generalize (y.wraps : Rat) * P = m at *
    generalize (x.wraps : Rat) * P = n at *
    generalize w * P = v at *
    clear hsy hsx x0 x1 y0 y1
    grind
  · refine Rat.lt_of_mul_lt_mul_right (c := P) ?_ (Rat.le_of_lt hP)
    have e : (((y.wraps - x.wraps : Int) : Rat) - w) * P = ((y.wraps : Rat) * P - (x.wraps : Rat) * P) - w * P := by
      rw [Rat.intCast_sub]
      grind
    rw [e]
    generalize (y.wraps : Rat) * P = m at *
    generalize (x.wraps : Rat) * P = n at *
    generalize w * P = v at *
    clear hsy hsx x0 x1 y0 y1
    grind

theorem resolve_step {dec : Rat → Rat} (hd : Decimal28 dec) {B P : Rat} (hP : 0 < P) (hfP : fl P = P) (hB : B ≤ 1000000000 * P) {c E : Rat}
    (hc : -(B + P) ≤ c ∧ c ≤ B + P) (hE : E ≤ B) {x y : Sample} (hx : Shows B P x) (hy : Shows B P y) (h : Follows B P x y) {r : Resolver}
    {time : Rat} (ht : r.time = some time) (hs : r.prevSource = x.shown (some P)) (ha : r.prevTarget = x.arrival)
    (he : -E ≤ time - (x.src + c) ∧ time - (x.src + c) ≤ E) :
    ∃ time', resolve dec (some P) r (y.shown (some P)) y.arrival = (.ok time', ⟨some time', y.shown (some P), y.arrival⟩) ∧
      -(E + P / 2 ^ 52) ≤ time' - (y.src + c) ∧ time' - (y.src + c) ≤ E + P / 2 ^ 52 := by
  obtain ⟨c1, c2⟩ := cycles_eq hP hfP hx hy h
  refine ⟨_, by
    simp only [resolve, ht, hs, ha]
    rw [if_neg (by grind)], ?_⟩
  rw [c2]
  obtain ⟨x0, x1, x2, x3, x4⟩ := hx
  obtain ⟨y0, y1, y2, y3, y4⟩ := hy
  have e2 := fl_near (q := y.shown (some P) - x.shown (some P)) (c := P) (by grind) (by grind)
  have hxs : -B ≤ x.src ∧ x.src ≤ B := by
    simp only [Rat.abs] at x4
    split at x4 <;> constructor <;> grind
  have hys : -B ≤ y.src ∧ y.src ≤ B := by
    simp only [Rat.abs] at y4
    split at y4 <;> constructor <;> grind
  have hsy : y.shown (some P) = y.src - (y.wraps : Rat) * P := rfl
  have hsx : x.shown (some P) = x.src - (x.wraps : Rat) * P := rfl
  have hn : ((y.wraps - x.wraps : Int) : Rat) * P = (y.src - x.src) - (y.shown (some P) - x.shown (some P)) := by
    rw [Rat.intCast_sub]
    grind
  rw [hn]
  generalize y.shown (some P) = sy at *
  generalize x.shown (some P) = sx at *
  generalize fl (sy - sx) = b at *
  clear hsy hsx hn h c1 c2 x4 y4
  have d1 := dec_near hd (c := 2 * B + P) (x := y.src - x.src - (sy - sx)) (by grind) (by grind)
  generalize dec (y.src - x.src - (sy - sx)) = n at *
  have d2 := dec_near hd (c := 6 * B + 4 * P) (x := time + n) (by grind) (by grind)
  generalize dec (time + n) = m at *
  have d3 := dec_near hd (c := 6 * B + 6 * P) (x := m + b) (by grind) (by grind)
  generalize dec (m + b) = w at *
  rw [show ((2 : Rat) ^ 52) = 4503599627370496 by decide +kernel]
  constructor <;> grind

theorem resolveAll_spec {dec : Rat → Rat} (hd : Decimal28 dec) {B P : Rat} (hP : 0 < P) (hfP : fl P = P) (hB : B ≤ 1000000000 * P) {c : Rat}
    (hc : -(B + P) ≤ c ∧ c ≤ B + P) (xs : List Sample) : ∀ (x : Sample) (r : Resolver) (time E : Rat), Shows B P x → (∀ y ∈ xs, Shows B P y) →
    Chain B P x xs → r.time = some time → r.prevSource = x.shown (some P) → r.prevTarget = x.arrival →
    (-E ≤ time - (x.src + c) ∧ time - (x.src + c) ≤ E) → E + (xs.length : Rat) * (P / 2 ^ 52) ≤ B →
    ∃ ts : List Rat, resolveAll dec (some P) r (xs.map (Sample.seen (some P))) = ts.map .ok ∧ ts.length = xs.length ∧
      ∀ yt ∈ xs.zip ts, -(E + (xs.length : Rat) * (P / 2 ^ 52)) ≤ yt.2 - (yt.1.src + c) ∧
        yt.2 - (yt.1.src + c) ≤ E + (xs.length : Rat) * (P / 2 ^ 52) := by
  have hu : 0 ≤ P / 2 ^ 52 := by
    rw [show ((2 : Rat) ^ 52) = 4503599627370496 by decide +kernel]
    grind
  induction xs with
  | nil => intro x r time E _ _ _ _ _ _ _ _; exact ⟨[], rfl, rfl, by simp⟩
  | cons y ys ih =>
    intro x r time E hx hy hch ht hs ha he hE
    have hlen : (((y :: ys).length : Nat) : Rat) * (P / 2 ^ 52) = (ys.length : Rat) * (P / 2 ^ 52) + P / 2 ^ 52 := by
      rw [List.length_cons, Rat.natCast_add]
      grind
    have hnn : 0 ≤ (ys.length : Rat) * (P / 2 ^ 52) := Rat.mul_nonneg (by exact_mod_cast Nat.zero_le _) hu
    rw [hlen] at hE ⊢
    obtain ⟨time', h1, h2, h3⟩ := resolve_step hd hP hfP hB hc (E := E) (by grind) hx (hy y (by simp)) hch.1 ht hs ha he
    obtain ⟨ts, r1, r2, r3⟩ := ih y ⟨some time', y.shown (some P), y.arrival⟩ time' (E + P / 2 ^ 52) (hy y (by simp)) (fun z hz => hy z (by simp [hz]))
      hch.2 rfl rfl rfl ⟨h2, h3⟩ (by grind)
    refine ⟨time' :: ts, ?_, by simp [r2], ?_⟩
    · simp only [List.map_cons, Sample.seen, resolveAll, h1]
      rw [← r1]
    · intro yt hyt
      rw [List.zip_cons_cons, List.mem_cons] at hyt
      rcases hyt with rfl | hyt
      · constructor <;> grind
      · have := r3 yt hyt
        constructor <;> grind

/-- **C160** (overflowing clocks): the resolved time of the source is the true one, relative to the first sample, up to an error of 2^-52 periods per
sample. -/
theorem C160_resolved_partial (dec : Rat → Rat) (hd : Decimal28 dec) (B P : Rat) (hP : 0 < P) (hfP : fl P = P) (hB : B ≤ 1000000000 * P) (x : Sample)
    (xs : List Sample) (hs : ∀ y ∈ x :: xs, Shows B P y) (hc : Chain B P x xs) (hn : (xs.length : Rat) * (P / 2 ^ 52) ≤ B) :
    ∃ ts : List Rat, resolveAll dec (some P) {} ((x :: xs).map (Sample.seen (some P))) = ts.map .ok ∧ ts.length = (x :: xs).length ∧
      ∀ yt ∈ (x :: xs).zip ts, (yt.2 - (x.shown (some P) + (yt.1.src - x.src))).abs ≤ (xs.length : Rat) * (P / 2 ^ 52) := by
  have hu : 0 ≤ P / 2 ^ 52 := by
    rw [show ((2 : Rat) ^ 52) = 4503599627370496 by decide +kernel]
    grind
  have hnn : 0 ≤ (xs.length : Rat) * (P / 2 ^ 52) := Rat.mul_nonneg (by exact_mod_cast Nat.zero_le _) hu
  have hx := hs x (by simp)
  obtain ⟨x0, x1, x2, x3, x4⟩ := hx
  have hxs : -B ≤ x.src ∧ x.src ≤ B := by
    simp only [Rat.abs] at x4
    split at x4 <;> constructor <;> grind
  obtain ⟨ts, h1, h2, h3⟩ := resolveAll_spec hd hP hfP hB (c := x.shown (some P) - x.src) (by constructor <;> grind) xs x
    ⟨some (x.shown (some P)), x.shown (some P), x.arrival⟩ (x.shown (some P)) 0 (hs x (by simp)) (fun y hy => hs y (by simp [hy])) hc rfl rfl rfl
    (by constructor <;> grind) (by grind)
  refine ⟨x.shown (some P) :: ts, ?_, by simp [h2], ?_⟩
  · simp only [List.map_cons]
    rw [← h1]
    rfl
  · intro yt hyt
    rw [List.zip_cons_cons, List.mem_cons] at hyt
    have habs : ∀ a b : Rat, -b ≤ a → a ≤ b → a.abs ≤ b := by
      intro a b _ _
      simp only [Rat.abs]
      split <;> grind
    rcases hyt with rfl | hyt
    · exact habs _ _ (by grind) (by grind)
    · have := h3 yt hyt
      exact habs _ _ (by grind) (by grind)

/-- The clock of an SLCAN adapter: it overflows between these two samples. -/
def over : List Sample := [⟨59, 0, 100, 0⟩, ⟨63, 1, 104, 0⟩]

example : (∀ y ∈ over, Shows 2147483648 60 y) ∧ Chain 2147483648 60 ⟨59, 0, 100, 0⟩ [⟨63, 1, 104, 0⟩] ∧ fl 60 = 60 ∧
    resolveAll (fun q => q) (some 60) {} (over.map (Sample.seen (some 60))) = [.ok 59, .ok 63] := by
  refine ⟨?_, ⟨⟨by decide +kernel, by decide +kernel, by decide +kernel⟩, trivial⟩, by decide +kernel, by decide +kernel⟩
  intro y hy
  simp only [over, List.mem_cons, List.not_mem_nil, or_false] at hy
  rcases hy with rfl | rfl <;> exact ⟨by decide +kernel, by decide +kernel, by decide +kernel, by decide +kernel, by decide +kernel⟩

/-! ## Rounding makes a difference -/

/-- The float nearest to 22.2. -/
def q1 : Rat := 6248744482976563 / 281474976710656

theorem C160_counterexample : ¬ C160_statement := by
  intro h
  have := h (fun q => q) ⟨none, 1 / 5000, 0, 1⟩ [⟨521 / 8, 0, q1, q1⟩] [q1 + 1 / 281474976710656] rfl rfl (by decide +kernel) (by decide +kernel)
    (by
      intro x hx
      rw [List.mem_singleton] at hx
      subst hx
      decide +kernel) (List.pairwise_singleton ..) (by decide +kernel) (⟨521 / 8, 0, q1, q1⟩, q1 + 1 / 281474976710656) (by simp)
  exact absurd this (by decide +kernel)

/-- The float nearest to 172.1; two samples arrive at this time. -/
def q2 : Rat := 6055230436487987 / 35184372088832

/-- The samples: 40.3 and 41.4 on the clock of the source. -/
def two : List Sample := [⟨2835860390359859 / 70368744177664, 0, q2, 0⟩, ⟨5826532017910579 / 140737488355328, 0, q2, 1⟩]

theorem two_floats : Floats two := by
  intro x hx
  simp only [two, List.mem_cons, List.not_mem_nil, or_false] at hx
  rcases hx with rfl | rfl <;> decide +kernel

theorem two_forward : Forward two := by simp only [Forward, two]; decide +kernel

theorem C160_order_counterexample : ¬ C160_order_statement := by
  intro h
  have := h (fun q => q) ⟨none, 1 / 5000, 0, 10⟩ two [q2 + 1 / 35184372088832, q2] rfl rfl (by decide +kernel) (by decide +kernel)
    two_floats two_forward (by decide +kernel)
  exact absurd this (by decide +kernel)

example : Within 200 ⟨none, 1 / 5000, 0, 10⟩ two ∧ Floats two ∧ Forward two ∧ Assumptions (1 / 5000) two := by
  refine ⟨⟨?_, by decide +kernel, by decide +kernel, by decide +kernel, by decide +kernel, rfl⟩, two_floats, two_forward, ?_, ?_⟩
  · intro x hx
    simp only [two, List.mem_cons, List.not_mem_nil, or_false] at hx
    rcases hx with rfl | rfl <;> decide +kernel
  · intro x hx
    simp only [two, List.mem_cons, List.not_mem_nil, or_false] at hx
    rcases hx with rfl | rfl <;> decide +kernel
  · simp only [two]; decide +kernel

end FloatStamps
end Dronecan
