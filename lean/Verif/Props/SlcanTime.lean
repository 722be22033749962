import Verif.Model.SlcanTime
import Verif.Props.Timestamps
import Verif.Props.SlcanTx

/-!
# C142: time stamps of the frames from an SLCAN adapter
-/

namespace Dronecan
namespace SlcanTime
open Timestamps

/-! ## Specification -/

/-- The truth about a line with a time stamp: the time of the adapter's clock, which overflows every 60 seconds, and when the frame was on the bus and
when its line was read, by the two clocks of the host. -/
structure Event where
  src : Rat
  wraps : Int
  busMono : Rat
  busReal : Rat
  mono : Rat
  real : Rat

def Event.forMono (e : Event) : Sample := ⟨e.src, e.wraps, e.mono, e.busMono⟩
def Event.forReal (e : Event) : Sample := ⟨e.src, e.wraps, e.real, e.busReal⟩

/-- What the line for an event says. -/
def Says (e : Event) (l : Line) : Prop := ∃ hw : Int, l.hw = some hw ∧ (hw : Rat) / 1000 = e.src - (e.wraps : Rat) * 60 ∧ l.mono = e.mono ∧ l.real = e.real

/-- The lines of a sequence of events, with lines without time stamp anywhere between them. -/
inductive Lines : List Event → List Line → Prop where
  | nil : Lines [] []
  | stamped (e : Event) (es : List Event) (l : Line) (ls : List Line) : Says e l → Lines es ls → Lines (e :: es) (l :: ls)
  | plain (es : List Event) (l : Line) (ls : List Line) : l.hw = none → Lines es ls → Lines es (l :: ls)

/-- The clocks are sane from one event to the next: those of the host do not run backwards and disagree with that of the adapter by less than 30 seconds. -/
def Sane : List Event → Prop
  | [] => True
  | e :: es => Chain (some 60) e.forMono (es.map Event.forMono) ∧ Chain (some 60) e.forReal (es.map Event.forReal) ∧
      (e :: es).Pairwise fun x y => x.src ≤ y.src

/-- The time stamps of frames: for lines without one the times when they were read, for those with one the given ones. -/
def weave : List Line → List (Rat × Rat) → List (Rat × Rat)
  | [], _ => []
  | l :: ls, ts => match l.hw, ts with
    | none, ts => (l.mono, l.real) :: weave ls ts
    | some _, t :: ts => t :: weave ls ts
    | some _, [] => []

/-- C142 in full: whatever the clocks, no frame is lost for its time stamp. -/
def C142_statement : Prop := ∀ (cfg : Config) (ls : List Line), config none none none = .ok cfg → ∀ t ∈ (run cfg {} ls).1, t ≠ none

/-! ## Options -/

/-- What the options mean: a rate error in ppm, a delay and a limit in seconds; what is left out has the default. -/
theorem C142_options (ppm delay resync : Option Rat) (h1 : ∀ x, ppm = some x → 0 < x) (h2 : ∀ x, delay = some x → 0 ≤ x) (h3 : ∀ x, resync = some x → 0 < x) :
    config ppm delay resync = .ok ⟨some 60, ppm.getD 200 / 1000000, delay.getD (2 / 10000), resync.getD (1 / 10)⟩ := by
  have key : ∀ r d m : Rat, 0 < r → 0 ≤ d → 0 < m → mkConfig (some r) (some 60) (some d) (some m) = .ok ⟨some 60, r, d, m⟩ := by
    intro r d m hr hd hm
    have e1 : r ≠ 0 := Rat.ne_of_gt hr
    have e2 : m ≠ 0 := Rat.ne_of_gt hm
    have e3 : (60 : Rat) ≠ 0 := by decide
    have n1 : ¬ r < 0 := by grind
    have n2 : ¬ d < 0 := by grind
    have n3 : ¬ m ≤ 0 := by grind
    have n4 : ¬ (60 : Rat) ≤ 0 := by decide
    have e4 : (if d = 0 then (0 : Rat) else d) = d := by split <;> simp_all
    simp only [mkConfig, orElse, if_neg e1, if_neg e2, e4, if_neg n1, if_neg n2, if_neg n3, if_neg e3, if_neg n4]
  have r1 : 0 < ppm.getD 200 / 1000000 := by
    cases ppm with
    | none => decide +kernel
    | some x => have := h1 x rfl; simp only [Option.getD_some]; grind
  have r2 : 0 ≤ delay.getD (2 / 10000) := by
    cases delay with
    | none => decide +kernel
    | some x => exact h2 x rfl
  have r3 : 0 < resync.getD (1 / 10) := by
    cases resync with
    | none => decide +kernel
    | some x => exact h3 x rfl
  have e : orElse resync (1 / 10) = resync.getD (1 / 10) := by
    cases resync with
    | none => rfl
    | some x =>
      have : x ≠ 0 := Rat.ne_of_gt (h3 x rfl)
      simp [orElse, this]
  rw [← key _ _ _ r1 r2 r3]
  unfold config
  rw [e]
  cases ppm <;> cases delay <;> rfl

/-- A rate error or a limit of zero means the default. -/
theorem C142_zero (ppm delay resync : Option Rat) :
    config (some 0) delay resync = config (some 200) delay resync ∧ config ppm delay (some 0) = config ppm delay none := by
  refine ⟨?_, ?_⟩
  · have e1 : (0 : Rat) / 1000000 = 0 := by decide +kernel
    have e2 : ¬ (200 : Rat) / 1000000 = 0 := by decide +kernel
    simp only [config, e1, mkConfig, orElse, if_true, if_neg e2]
  · simp [config, orElse]

/-! ## Lines -/

theorem run_weave (cfg : Config) (hcfg : cfg.period = some 60) (es : List Event) (ls : List Line) (h : Lines es ls) (s : Est) (tm tr : List Rat)
    (hm : (Timestamps.run cfg s.mono (es.map fun e => e.forMono.seen (some 60))).1 = tm.map .ok)
    (hr : (Timestamps.run cfg s.real (es.map fun e => e.forReal.seen (some 60))).1 = tr.map .ok) :
    (run cfg s ls).1 = (weave ls (tm.zip tr)).map some ∧
      (run cfg s ls).2 = ⟨(Timestamps.run cfg s.mono (es.map fun e => e.forMono.seen (some 60))).2,
        (Timestamps.run cfg s.real (es.map fun e => e.forReal.seen (some 60))).2⟩ := by
  induction h generalizing s tm tr with
  | nil => exact ⟨rfl, rfl⟩
  | plain es l ls hl _ ih =>
    have := ih s tm tr hm hr
    simp only [run, stamp, hl, weave, List.map_cons, this.1, this.2, and_self]
  | stamped e es l ls hs _ ih =>
    obtain ⟨hw, h1, h2, h3, h4⟩ := hs
    have s1 : e.forMono.seen (some 60) = ((hw : Rat) / 1000, l.mono) := by simp only [Sample.seen, Sample.shown, Event.forMono, h2, h3]
    have s2 : e.forReal.seen (some 60) = ((hw : Rat) / 1000, l.real) := by simp only [Sample.seen, Sample.shown, Event.forReal, h2, h4]
    simp only [List.map_cons, Timestamps.run, s1, s2] at hm hr ⊢
    cases hum : update cfg s.mono ((hw : Rat) / 1000) l.mono with
    | mk rm m =>
      cases hur : update cfg s.real ((hw : Rat) / 1000) l.real with
      | mk rr r =>
        rw [hum] at hm
        rw [hur] at hr
        simp only at hm hr
        cases tm with
        | nil => cases hm
        | cons t tm =>
          cases tr with
          | nil => cases hr
          | cons u tr =>
            simp only [List.map_cons, List.cons.injEq] at hm hr
            obtain ⟨hm1, hm2⟩ := hm
            obtain ⟨hr1, hr2⟩ := hr
            subst hm1 hr1
            have := ih ⟨m, r⟩ tm tr hm2 hr2
            simp only [run, stamp, h1, hum, hur, weave, List.zip_cons_cons, List.map_cons, this.1, this.2, and_self]

theorem config_good (ppm delay resync : Option Rat) (cfg : Config) (h : config ppm delay resync = .ok cfg) : GoodConfig cfg ∧ cfg.period = some 60 := by
  have key : ∀ (r d m : Option Rat), mkConfig r (some 60) d m = .ok cfg → cfg.period = some 60 := by
    intro r d m h
    have e3 : (60 : Rat) ≠ 0 := by decide
    have n4 : ¬ (60 : Rat) ≤ 0 := by decide
    unfold mkConfig at h
    simp only [if_neg e3, if_neg n4] at h
    split at h
    · cases h
    · split at h
      · cases h
      · split at h
        · cases h
        · cases h
          rfl
  unfold config at h
  exact ⟨goodConfig _ _ _ _ cfg h, key _ _ _ h⟩

theorem weave_length (es : List Event) (ls : List Line) (h : Lines es ls) (ts : List (Rat × Rat)) (ht : ts.length = es.length) : (weave ls ts).length = ls.length := by
  induction h generalizing ts with
  | nil => rfl
  | plain es l ls hl _ ih => simp only [weave, hl, List.length_cons, ih ts ht]
  | stamped e es l ls hs _ ih =>
    obtain ⟨hw, h1, -⟩ := hs
    cases ts with
    | nil => simp at ht
    | cons t ts =>
      simp only [List.length_cons, Nat.add_right_cancel_iff] at ht
      simp only [weave, h1, List.length_cons, ih ts ht]

theorem zip_map (f : Event → Sample) (es : List Event) (ts : List Rat) (et : Event × Rat) (h : et ∈ es.zip ts) : (f et.1, et.2) ∈ (es.map f).zip ts := by
  induction es generalizing ts with
  | nil => simp at h
  | cons e es ih =>
    cases ts with
    | nil => simp at h
    | cons t ts =>
      rw [List.zip_cons_cons, List.mem_cons] at h
      rw [List.map_cons, List.zip_cons_cons, List.mem_cons]
      rcases h with rfl | h
      · exact .inl rfl
      · exact .inr (ih ts h)

theorem sourceUp (f : Event → Sample) (hf : ∀ e, (f e).src = e.src) (es : List Event) (h : es.Pairwise fun x y => x.src ≤ y.src) : SourceUp (es.map f) := by
  rw [SourceUp, List.pairwise_map]
  exact h.imp fun {a b} hab => by rw [hf, hf]; exact hab

/-- C142 if the clocks are sane: every frame is delivered; those without time stamp of the adapter have the times when they were read; those with one have
time stamps that never decrease and are later than the reading by the fixed delay at most, by either clock. (Missing: the real-time clock is set back,
`C142_counterexample`.) -/
theorem C142_partial (ppm delay resync : Option Rat) (cfg : Config) (hcfg : config ppm delay resync = .ok cfg) (es : List Event) (ls : List Line)
    (hl : Lines es ls) (hs : Sane es) :
    ∃ tm tr : List Rat, (run cfg {} ls).1 = (weave ls (tm.zip tr)).map some ∧ (weave ls (tm.zip tr)).length = ls.length ∧
      tm.length = es.length ∧ tr.length = es.length ∧
      tm.Pairwise (· ≤ ·) ∧ tr.Pairwise (· ≤ ·) ∧ (∀ et ∈ es.zip tm, et.2 ≤ et.1.mono + cfg.fixedDelay) ∧ ∀ et ∈ es.zip tr, et.2 ≤ et.1.real + cfg.fixedDelay := by
  obtain ⟨hg, hp⟩ := config_good ppm delay resync cfg hcfg
  cases es with
  | nil =>
    obtain ⟨h1, -⟩ := run_weave cfg hp [] ls hl {} [] [] rfl rfl
    exact ⟨[], [], h1, weave_length _ _ hl _ rfl, rfl, rfl, .nil, .nil, by simp, by simp⟩
  | cons e es =>
    obtain ⟨s1, s2, s3⟩ := hs
    obtain ⟨tm, m1, m2, m3, m4⟩ := C54_sane_partial cfg hg e.forMono (es.map Event.forMono) (by rw [hp]; exact s1) (sourceUp Event.forMono (fun _ => rfl) (e :: es) s3)
    obtain ⟨tr, r1, r2, r3, r4⟩ := C54_sane_partial cfg hg e.forReal (es.map Event.forReal) (by rw [hp]; exact s2) (sourceUp Event.forReal (fun _ => rfl) (e :: es) s3)
    rw [hp] at m1 r1
    obtain ⟨h1, -⟩ := run_weave cfg hp (e :: es) ls hl {} tm tr (by rw [← m1, ← List.map_cons, List.map_map]; rfl) (by rw [← r1, ← List.map_cons, List.map_map]; rfl)
    have lm : tm.length = (e :: es).length := by rw [m2]; simp
    have lr : tr.length = (e :: es).length := by rw [r2]; simp
    refine ⟨tm, tr, h1, weave_length _ _ hl _ (by simp [lm, lr]), lm, lr, m3, r3, ?_, ?_⟩
    · intro et het
      exact m4 (et.1.forMono, et.2) (zip_map Event.forMono (e :: es) tm et het)
    · intro et het
      exact r4 (et.1.forReal, et.2) (zip_map Event.forReal (e :: es) tr et het)

/-- And if no line is read before its frame was on the bus and the host's clocks are faster than the adapter's by the rate error at most, no time stamp is
too early. -/
theorem C142_not_early (ppm delay resync : Option Rat) (cfg : Config) (hcfg : config ppm delay resync = .ok cfg) (es : List Event) (ls : List Line)
    (hl : Lines es ls) (hs : Sane es) (hm : Assumptions cfg.rate (es.map Event.forMono)) (hr : Assumptions cfg.rate (es.map Event.forReal)) :
    ∃ tm tr : List Rat, (run cfg {} ls).1 = (weave ls (tm.zip tr)).map some ∧ tm.length = es.length ∧ tr.length = es.length ∧
      (∀ et ∈ es.zip tm, et.1.busMono + cfg.fixedDelay ≤ et.2) ∧ ∀ et ∈ es.zip tr, et.1.busReal + cfg.fixedDelay ≤ et.2 := by
  obtain ⟨hg, hp⟩ := config_good ppm delay resync cfg hcfg
  cases es with
  | nil =>
    obtain ⟨h1, -⟩ := run_weave cfg hp [] ls hl {} [] [] rfl rfl
    exact ⟨[], [], h1, rfl, rfl, by simp, by simp⟩
  | cons e es =>
    obtain ⟨s1, s2, s3⟩ := hs
    obtain ⟨tm, m1, m2, m4⟩ := C54_not_early cfg hg e.forMono (es.map Event.forMono) (by rw [hp]; exact s1) (sourceUp Event.forMono (fun _ => rfl) (e :: es) s3) hm
    obtain ⟨tr, r1, r2, r4⟩ := C54_not_early cfg hg e.forReal (es.map Event.forReal) (by rw [hp]; exact s2) (sourceUp Event.forReal (fun _ => rfl) (e :: es) s3) hr
    rw [hp] at m1 r1
    obtain ⟨h1, -⟩ := run_weave cfg hp (e :: es) ls hl {} tm tr (by rw [← m1, ← List.map_cons, List.map_map]; rfl) (by rw [← r1, ← List.map_cons, List.map_map]; rfl)
    have lm : tm.length = (e :: es).length := by rw [m2]; simp
    have lr : tr.length = (e :: es).length := by rw [r2]; simp
    refine ⟨tm, tr, h1, lm, lr, ?_, ?_⟩
    · intro et het
      exact m4 (et.1.forMono, et.2) (zip_map Event.forMono (e :: es) tm et het)
    · intro et het
      exact r4 (et.1.forReal, et.2) (zip_map Event.forReal (e :: es) tr et het)

/-! ## A clock that is set back -/

/-- The real-time clock at the last line with a time stamp. -/
def lastReal (ls : List Line) : Option Rat := ((ls.filter fun l => l.hw.isSome).map Line.real).getLast?

theorem resolve_ok (period : Option Rat) (r r' : Resolver) (s t x : Rat) (h : resolve period r s t = (.ok x, r')) : r'.time.isSome ∧ r'.prevTarget = t := by
  unfold resolve at h
  split at h
  · dsimp only at h
    split at h
    · cases h
    · cases h; exact ⟨rfl, rfl⟩
  · cases h; exact ⟨rfl, rfl⟩

theorem estimate_resolver (cfg : Config) (s : Estimator) (p q pi qi : Rat) : (estimate cfg s p q pi qi).2.resolver = s.resolver := by
  unfold estimate
  split
  · rfl
  · dsimp only
    split <;> rfl

theorem update_ok (cfg : Config) (s s' : Estimator) (src tgt x : Rat) (h : update cfg s src tgt = (.ok x, s')) :
    s'.resolver.time.isSome ∧ s'.resolver.prevTarget = tgt := by
  unfold update at h
  split at h
  · cases h
  · rename_i pi r hr
    have a := resolve_ok _ _ _ _ _ _ hr
    dsimp only at h
    split at h
    · split at h
      · cases h
      · rename_i pi' r' hr'
        have b := resolve_ok _ _ _ _ _ _ hr'
        have c := congrArg (fun z => z.2.resolver) h
        simp only [estimate_resolver] at c
        rw [← c]
        exact b
    · have c := congrArg (fun z => z.2.resolver) h
      simp only [estimate_resolver] at c
      rw [← c]
      exact a

theorem run_last (cfg : Config) (ls : List Line) : ∀ (s : Est), (∀ t ∈ (run cfg s ls).1, t ≠ none) → ∀ x, lastReal ls = some x →
    (run cfg s ls).2.real.resolver.time.isSome ∧ (run cfg s ls).2.real.resolver.prevTarget = x := by
  induction ls with
  | nil => intro s _ x hx; cases hx
  | cons l ls ih =>
    intro s hd x hx
    simp only [run] at hd ⊢
    have hd' : ∀ t ∈ (run cfg (stamp cfg s l).2 ls).1, t ≠ none := fun t ht => hd t (by simp [ht])
    by_cases hls : lastReal ls = none
    · have hall : ∀ k ∈ ls, k.hw = none := by
        intro k hk
        simp only [lastReal, List.getLast?_eq_none_iff, List.map_eq_nil_iff, List.filter_eq_nil_iff] at hls
        have := hls k hk
        cases hh : k.hw with
        | none => rfl
        | some v => simp [hh] at this
      have hsame : ∀ (ks : List Line), (∀ k ∈ ks, k.hw = none) → ∀ s, (run cfg s ks).2 = s := by
        intro ks
        induction ks with
        | nil => intro _ s; rfl
        | cons k ks ihk =>
          intro hk s
          have h1 : (stamp cfg s k).2 = s := by simp only [stamp, hk k (by simp)]
          simp only [run, h1]
          exact ihk (fun j hj => hk j (by simp [hj])) s
      rw [hsame ls hall]
      have hne : (stamp cfg s l).1 ≠ none := hd _ (by simp)
      have hf : ls.filter (fun l => l.hw.isSome) = [] := by
        rw [List.filter_eq_nil_iff]
        intro k hk
        simp [hall k hk]
      cases hh : l.hw with
      | none => simp [lastReal, hh, hf] at hx
      | some v =>
        have hx' : l.real = x := by simpa [lastReal, hh, hf] using hx
        subst hx'
        simp only [stamp, hh] at hne ⊢
        cases hum : update cfg s.mono ((v : Rat) / 1000) l.mono with
        | mk rm m =>
          rw [hum] at hne
          cases rm with
          | error e => simp at hne
          | ok tm =>
            simp only at hne ⊢
            cases hur : update cfg s.real ((v : Rat) / 1000) l.real with
            | mk rr r =>
              rw [hur] at hne
              cases rr with
              | error e => simp at hne
              | ok tr => exact update_ok cfg _ _ _ _ _ hur
    · apply ih _ hd' x
      simp only [lastReal, List.filter_cons] at hx hls ⊢
      split at hx
      · rw [List.map_cons, List.getLast?_cons] at hx
        cases hg : ((ls.filter fun l => l.hw.isSome).map Line.real).getLast? with
        | none => exact absurd hg hls
        | some y => rw [hg] at hx; exact hx
      · exact hx

/-- The real-time clock has been set back since the last line with a time stamp: the next frame with one is lost. -/
theorem C142_set_back (ppm delay resync : Option Rat) (cfg : Config) (hcfg : config ppm delay resync = .ok cfg) (ls : List Line)
    (hd : ∀ t ∈ (run cfg {} ls).1, t ≠ none) (before : Rat) (hb : lastReal ls = some before) (l : Line) (hw : l.hw.isSome) (hl : l.real < before) :
    (stamp cfg (run cfg {} ls).2 l).1 = none := by
  obtain ⟨-, hp⟩ := config_good ppm delay resync cfg hcfg
  obtain ⟨h1, h2⟩ := run_last cfg ls {} hd before hb
  obtain ⟨v, hv⟩ := Option.isSome_iff_exists.1 hw
  obtain ⟨time, ht⟩ := Option.isSome_iff_exists.1 h1
  generalize (run cfg {} ls).2 = s at *
  have hr : (update cfg s.real ((v : Rat) / 1000) l.real).1 = .error .assertionError := by
    have : (resolve cfg.period s.real.resolver ((v : Rat) / 1000) l.real) = (.error .assertionError, { s.real.resolver with prevTarget := l.real }) := by
      have hlt : l.real - s.real.resolver.prevTarget < 0 := by rw [h2]; grind
      unfold resolve
      rw [hp]
      simp only [ht, if_pos hlt]
    unfold update
    rw [this]
  simp only [stamp, hv]
  cases hum : update cfg s.mono ((v : Rat) / 1000) l.mono with
  | mk rm m =>
    cases rm with
    | error e => rfl
    | ok t =>
      cases hur : update cfg s.real ((v : Rat) / 1000) l.real with
      | mk rr r =>
        rw [hur] at hr
        simp only at hr
        subst hr
        rfl

theorem run_after (cfg : Config) (hg : GoodConfig cfg) (xs : List Sample) : ∀ (past : List Sample) (s : Estimator) (x : Sample) (t : Rat),
    After cfg past s x t → Chain cfg.period x xs → SourceUp (x :: xs) →
    ∃ past' t', After cfg past' (Timestamps.run cfg s (xs.map (Sample.seen cfg.period))).2 ((x :: xs).getLast (by simp)) t' := by
  induction xs with
  | nil => intro past s x t h _ _; exact ⟨past, t, h⟩
  | cons y ys ih =>
    intro past s x t h hc hs
    have hxy : x.src ≤ y.src := List.rel_of_pairwise_cons hs (a' := y) (by simp)
    obtain ⟨t', s', u1, u2, u3⟩ := update_next cfg hg past s x y t h hc.1 hxy
    obtain ⟨past', t'', h3⟩ := ih (y :: past) s' y t' u2 hc.2 (List.Pairwise.of_cons hs)
    refine ⟨past', t'', ?_⟩
    simp only [List.map_cons, Timestamps.run, Sample.seen, u1]
    rw [List.getLast_cons (by simp)]
    exact h3

theorem run_after_first (cfg : Config) (hg : GoodConfig cfg) (x : Sample) (xs : List Sample) (hc : Chain cfg.period x xs) (hs : SourceUp (x :: xs)) :
    ∃ past t, After cfg past (Timestamps.run cfg {} ((x :: xs).map (Sample.seen cfg.period))).2 ((x :: xs).getLast (by simp)) t := by
  obtain ⟨s, h1, h2⟩ := update_first cfg hg x
  obtain ⟨past, t, h3⟩ := run_after cfg hg xs [x] s x _ h2 hc hs
  exact ⟨past, t, by simpa only [List.map_cons, Timestamps.run, Sample.seen, h1] using h3⟩

/-- An estimator whose clock has been set back to `now` works again. -/
theorem update_again (cfg : Config) (hg : GoodConfig cfg) (s : Estimator) (c : Rat) (x k z : Sample) (h1 : Resolved cfg.period c s.resolver x)
    (h2 : s.pq = some (k.src + c, k.arrival)) (h3 : k.src ≤ x.src) (hf : Follows cfg.period x z) (hs : x.src ≤ z.src) :
    ∃ t s', update cfg s (z.shown cfg.period) z.arrival = (.ok t, s') := by
  obtain ⟨r', r1, r2⟩ := resolve_next cfg.period hg.period c s.resolver x z h1 hf
  unfold update
  simp only [r1, h2, Option.getD_some]
  split
  · obtain ⟨c', r'', q1, q2, -⟩ := resolve_first cfg.period {} (.inl rfl) z
    simp only [q1]
    obtain ⟨t', s', e1, -, -⟩ := estimate_spec cfg [z]
      { s with
        resolver := r''
        delay := ((z.src + c - (k.src + c)) - (z.arrival - k.arrival)).abs
        resyncs := s.resyncs + 1 } c' z z q2 (by simp) (by simp) Rat.le_refl
    exact ⟨t', s', e1⟩
  · obtain ⟨t', s', e1, -, -⟩ := estimate_spec cfg [k, z]
      { s with
        resolver := r'
        delay := ((z.src + c - (k.src + c)) - (z.arrival - k.arrival)).abs } c k z r2 (by simp) (by simp) (by grind)
    exact ⟨t', s', e1⟩

/-- It costs one frame: the one after it is delivered, if the clocks are sane again. -/
theorem C142_once (ppm delay resync : Option Rat) (cfg : Config) (hcfg : config ppm delay resync = .ok cfg) (e : Event) (es : List Event) (ls : List Line)
    (hl : Lines (e :: es) ls) (hs : Sane (e :: es)) (x y z : Event) (hx : x = (e :: es).getLast (by simp)) (ly lz : Line) (hly : Says y ly) (hlz : Says z lz)
    (hxy : x.src ≤ y.src) (hyz : y.src ≤ z.src) (fy : Follows (some 60) x.forMono y.forMono) (fz : Follows (some 60) y.forMono z.forMono)
    (hback : y.real < x.real) (hz : y.real ≤ z.real) (h30 : (z.real - y.real) - (z.src - x.src) < 30 ∧ (z.src - x.src) - (z.real - y.real) < 30) :
    ∃ t, (run cfg {} (ls ++ [ly, lz])).1 = (run cfg {} ls).1 ++ [none, some t] := by
  obtain ⟨hg, hp⟩ := config_good ppm delay resync cfg hcfg
  obtain ⟨s1, s2, s3⟩ := hs
  obtain ⟨tm, m1, m2, -, -⟩ := C54_sane_partial cfg hg e.forMono (es.map Event.forMono) (by rw [hp]; exact s1) (sourceUp Event.forMono (fun _ => rfl) (e :: es) s3)
  obtain ⟨tr, r1, r2, -, -⟩ := C54_sane_partial cfg hg e.forReal (es.map Event.forReal) (by rw [hp]; exact s2) (sourceUp Event.forReal (fun _ => rfl) (e :: es) s3)
  obtain ⟨pm, t1, am⟩ := run_after_first cfg hg e.forMono (es.map Event.forMono) (by rw [hp]; exact s1) (sourceUp Event.forMono (fun _ => rfl) (e :: es) s3)
  obtain ⟨pr, t2, ar⟩ := run_after_first cfg hg e.forReal (es.map Event.forReal) (by rw [hp]; exact s2) (sourceUp Event.forReal (fun _ => rfl) (e :: es) s3)
  rw [hp] at m1 r1
  obtain ⟨-, hst⟩ := run_weave cfg hp (e :: es) ls hl {} tm tr (by rw [← m1, ← List.map_cons, List.map_map]; rfl) (by rw [← r1, ← List.map_cons, List.map_map]; rfl)
  have lm : (e.forMono :: es.map Event.forMono).getLast (by simp) = x.forMono := by
    rw [hx]
    have := List.getLast_map (f := Event.forMono) (l := e :: es) (by simp)
    simpa only [List.map_cons] using this
  have lr : (e.forReal :: es.map Event.forReal).getLast (by simp) = x.forReal := by
    rw [hx]
    have := List.getLast_map (f := Event.forReal) (l := e :: es) (by simp)
    simpa only [List.map_cons] using this
  rw [lm] at am
  rw [lr] at ar
  have em : (Timestamps.run cfg {} ((e.forMono :: es.map Event.forMono).map (Sample.seen cfg.period))).2 = (run cfg {} ls).2.mono := by
    rw [hst, hp, ← List.map_cons, List.map_map]; rfl
  have er : (Timestamps.run cfg {} ((e.forReal :: es.map Event.forReal).map (Sample.seen cfg.period))).2 = (run cfg {} ls).2.real := by
    rw [hst, hp, ← List.map_cons, List.map_map]; rfl
  rw [em] at am
  rw [er] at ar
  have hrun : ∀ (as bs : List Line) (s : Est), (run cfg s (as ++ bs)).1 = (run cfg s as).1 ++ (run cfg (run cfg s as).2 bs).1 := by
    intro as bs
    induction as with
    | nil => intro s; rfl
    | cons a as ih => intro s; simp only [List.cons_append, run, ih]
  generalize hS : (run cfg {} ls).2 = S at *
  obtain ⟨vy, y1, y2, y3, y4⟩ := hly
  obtain ⟨vz, z1, z2, z3, z4⟩ := hlz
  obtain ⟨ty, sy, u1, u2, -⟩ := update_next cfg hg pm S.mono x.forMono y.forMono t1 am (by rw [hp]; exact fy) hxy
  obtain ⟨tz, sz, v1, v2, -⟩ := update_next cfg hg _ sy y.forMono z.forMono ty u2 (by rw [hp]; exact fz) hyz
  obtain ⟨c, k, a1, a2, a3, a4, -, -⟩ := ar
  have hrs : resolve cfg.period S.real.resolver (y.forReal.shown cfg.period) y.real = (.error .assertionError, { S.real.resolver with prevTarget := y.real }) := by
    have ht := a1.time
    have hlt : y.real - S.real.resolver.prevTarget < 0 := by
      rw [a1.target]
      show y.real - x.real < 0
      grind
    unfold resolve
    rw [hp]
    simp only [ht, if_pos hlt]
  have hur : update cfg S.real (y.forReal.shown cfg.period) y.real = (.error .assertionError, { S.real with resolver := { S.real.resolver with prevTarget := y.real } }) := by
    unfold update
    rw [hrs]
  obtain ⟨tr', sr', w⟩ := update_again cfg hg { S.real with resolver := { S.real.resolver with prevTarget := y.real } } c { x.forReal with arrival := y.real } k z.forReal
    ⟨a1.time, a1.source, rfl, a1.shift⟩ a3 a4 (by
      rw [hp]
      refine ⟨hz, ?_⟩
      intro p hpp
      injection hpp with hpp
      subst hpp
      have e30 : (60 : Rat) / 2 = 30 := by decide +kernel
      rw [e30]
      exact h30) (Rat.le_trans hxy hyz)
  rw [hp] at u1 v1 hur w
  have ey : (vy : Rat) / 1000 = y.forMono.shown (some 60) := y2
  have ez : (vz : Rat) / 1000 = z.forMono.shown (some 60) := z2
  have ey' : y.forMono.shown (some 60) = y.forReal.shown (some 60) := rfl
  have ez' : z.forMono.shown (some 60) = z.forReal.shown (some 60) := rfl
  have am1 : y.forMono.arrival = y.mono := rfl
  have am2 : z.forMono.arrival = z.mono := rfl
  have am3 : z.forReal.arrival = z.real := rfl
  rw [am1] at u1
  rw [am2] at v1
  rw [am3] at w
  have st1 : stamp cfg S ly = (none, ⟨sy, { S.real with resolver := { S.real.resolver with prevTarget := y.real } }⟩) := by
    simp only [stamp, y1, ey, y3, y4, u1]
    rw [ey']
    simp only [hur]
  have st2 : ∃ s', stamp cfg ⟨sy, { S.real with resolver := { S.real.resolver with prevTarget := y.real } }⟩ lz = (some (tz, tr'), s') := by
    refine ⟨⟨sz, sr'⟩, ?_⟩
    simp only [stamp, z1, ez, z3, z4, v1]
    rw [ez']
    simp only [w]
  obtain ⟨s', st2⟩ := st2
  refine ⟨(tz, tr'), ?_⟩
  rw [hrun, hS]
  simp only [run, st1, st2]

theorem C142_counterexample : ¬ C142_statement := by
  intro h
  have h1 := h ⟨some 60, 200 / 1000000, 2 / 10000, 1 / 10⟩ [⟨some 0, 10, 10⟩, ⟨some 1, 10001 / 1000, 5⟩] (by decide +kernel) none (by decide +kernel)
  exact h1 rfl

/-! ## The worker -/

/-- The frame lines in a stream that is read in pieces: `acc` is the beginning of a line that has not ended. With each line the times of the read in which it
ended. -/
def linesRead (acc : List Byte) : List Slcan.Read → List (Slcan.Parsed × Slcan.Stamp)
  | [] => []
  | r :: rs => ((Slcan.linesOf acc r.new).filterMap fun l => match Slcan.parseLine l with
      | .ok (some p) => some (p, r.ts)
      | _ => none) ++ linesRead (Slcan.restOf acc r.new) rs

/-- Such a line for the estimators. -/
def lineOf (x : Slcan.Parsed × Slcan.Stamp) : Line := ⟨x.1.hwTs, x.2.1, x.2.2⟩

theorem run_append (cfg : Config) (as bs : List Line) (s : Est) :
    run cfg s (as ++ bs) = ((run cfg s as).1 ++ (run cfg (run cfg s as).2 bs).1, (run cfg (run cfg s as).2 bs).2) := by
  induction as generalizing s with
  | nil => rfl
  | cons a as ih => simp only [List.cons_append, run, ih]

theorem worker_lines (cfg : Config) (utf8 : List Byte → Bool) (ts : Slcan.Stamp) (lines : List (List Byte)) : ∀ (s : Slcan.Rx Est)
    (xs : List (Slcan.Parsed × Slcan.Stamp)), (xs = lines.filterMap fun l => match Slcan.parseLine l with
      | .ok (some p) => some (p, ts)
      | _ => none) →
    (Slcan.processLines (env cfg utf8) ts s lines).seen = s.seen ++ (xs.map (·.1)).zip (run cfg s.est (xs.map lineOf)).1 ∧
      (Slcan.processLines (env cfg utf8) ts s lines).est = (run cfg s.est (xs.map lineOf)).2 := by
  induction lines with
  | nil => rintro s xs rfl; simp [Slcan.processLines, run]
  | cons l ls ih =>
    rintro s xs hxs
    have hcons : Slcan.processLines (env cfg utf8) ts s (l :: ls) = Slcan.processLines (env cfg utf8) ts (Slcan.processLine (env cfg utf8) ts s l) ls := rfl
    rw [hcons]
    obtain ⟨h1, h2⟩ := ih (Slcan.processLine (env cfg utf8) ts s l) _ rfl
    cases hp : Slcan.parseLine l with
    | error e =>
      simp only [List.filterMap_cons, hp] at hxs
      have : Slcan.processLine (env cfg utf8) ts s l = s := by simp only [Slcan.processLine, hp]
      rw [this] at h1 h2 ⊢
      rw [h1, h2, hxs]
      exact ⟨rfl, rfl⟩
    | ok o =>
      cases o with
      | none =>
        simp only [List.filterMap_cons, hp] at hxs
        have : Slcan.processLine (env cfg utf8) ts s l = s := by simp only [Slcan.processLine, hp]
        rw [this] at h1 h2 ⊢
        rw [h1, h2, hxs]
        exact ⟨rfl, rfl⟩
      | some p =>
        simp only [List.filterMap_cons, hp] at hxs
        subst hxs
        rw [h1, h2]
        have key : (Slcan.processLine (env cfg utf8) ts s l).seen = s.seen ++ [(p, (stamp cfg s.est (lineOf (p, ts))).1)] ∧
            (Slcan.processLine (env cfg utf8) ts s l).est = (stamp cfg s.est (lineOf (p, ts))).2 := by
          cases hh : p.hwTs with
          | none => simp [Slcan.processLine, hp, hh, stamp, lineOf]
          | some hw =>
            have he : (env cfg utf8).update s.est hw ts = stamp cfg s.est (lineOf (p, ts)) := by simp [env, lineOf, hh]
            cases hst : stamp cfg s.est (lineOf (p, ts)) with
            | mk o e =>
              rw [hst] at he
              cases o <;> simp [Slcan.processLine, hp, hh, he]
        rw [key.1, key.2]
        simp only [List.map_cons, run, List.zip_cons_cons, List.append_assoc, List.singleton_append, and_self]

/-- While no commands are executed, whatever the reads: the time stamps of the frames are those of the estimators for the lines of the stream, each with the
times of the read in which it ended. -/
theorem C142_worker (cfg : Config) (utf8 : List Byte → Bool) (reads : List Slcan.Read) (hr : ∀ r ∈ reads, r.cmds = []) : ∀ (s : Slcan.Rx Est),
    Slcan.Normal s → Slcan.CR ∉ s.data →
    (Slcan.run (env cfg utf8) s reads).seen =
      s.seen ++ ((linesRead s.data reads).map (·.1)).zip (run cfg s.est ((linesRead s.data reads).map lineOf)).1 := by
  induction reads with
  | nil => intro s _ _; simp [Slcan.run, linesRead]
  | cons r reads ih =>
    intro s hn hd
    have hrc : r.cmds = [] := hr r List.mem_cons_self
    have hs : ({ s with pending := s.pending ++ r.cmds } : Slcan.Rx Est) = s := by rw [hrc, List.append_nil]
    have hrun : Slcan.run (env cfg utf8) s (r :: reads) = Slcan.run (env cfg utf8) (Slcan.iteration (env cfg utf8) s r.new r.ts r.now) reads := by
      show Slcan.run (env cfg utf8) (Slcan.iteration (env cfg utf8) { s with pending := s.pending ++ r.cmds } r.new r.ts r.now) reads = _
      rw [hs]
    rw [hrun, Slcan.iteration_normal _ s hn]
    obtain ⟨l1, l2⟩ := Slcan.linesOf_plain s.data hd r.new []
    rw [List.nil_append] at l1 l2
    rw [l1, l2]
    obtain ⟨p1, p2, p3, p4, p5⟩ := Slcan.processLines_spec (env cfg utf8) r.ts (Slcan.linesOf s.data r.new)
      { s with data := Slcan.restOf s.data r.new }
    obtain ⟨w1, w2⟩ := worker_lines cfg utf8 r.ts (Slcan.linesOf s.data r.new) { s with data := Slcan.restOf s.data r.new } _ rfl
    rw [ih (fun q hq => hr q (List.mem_cons_of_mem _ hq)) _ ⟨p3.trans hn.1, p5.trans hn.2⟩ (by rw [p2]; exact Slcan.restOf_no_cr _ _ hd)]
    rw [p2, w1, w2]
    simp only [linesRead, List.map_append, run_append]
    rw [List.zip_append (by
      rw [List.length_map]
      generalize List.filterMap _ _ = xs
      generalize s.est = e
      clear p1 p2 p3 p4 p5 w1 w2
      induction xs generalizing e with
      | nil => rfl
      | cons x xs ihx => simp only [List.map_cons, run, List.length_cons, ← ihx])]
    rw [List.append_assoc]

/-- So if the clocks are sane, no frame is lost, and the theorems on the reception from the adapter (C100, C115) apply. -/
theorem C142_none_lost (ppm delay resync : Option Rat) (cfg : Config) (hcfg : config ppm delay resync = .ok cfg) (utf8 : List Byte → Bool)
    (reads : List Slcan.Read) (hr : ∀ r ∈ reads, r.cmds = []) (es : List Event) (hl : Lines es ((linesRead [] reads).map lineOf)) (hs : Sane es) :
    Slcan.NoneLost (Slcan.run (env cfg utf8) { est := {} } reads) := by
  obtain ⟨tm, tr, h1, -⟩ := C142_partial ppm delay resync cfg hcfg es _ hl hs
  intro x hx
  rw [C142_worker cfg utf8 reads hr _ ⟨rfl, rfl⟩ (by simp)] at hx
  rw [List.nil_append] at hx
  have := (List.of_mem_zip (a := x.1) (b := x.2) hx).2
  rw [h1] at this
  obtain ⟨y, -, hy⟩ := List.mem_map.1 this
  rw [← hy]
  exact fun h => nomatch h

/-- The last part of C100 in full, for the driver with its estimators: without commands, the frames handed over, lost during the construction or still in the
queue are those of the lines received. -/
def C100_statement : Prop :=
  ∀ (cfg : Config) (utf8 : List Byte → Bool) (s : SlcanDriver.Drv Est) (hist : List SlcanDriver.Step), config none none none = .ok cfg → SlcanDriver.Fresh s →
    s.worker.est = {} → SlcanDriver.asked (SlcanDriver.steps (env cfg utf8) s hist).trace = [] →
    Slcan.framesOf (SlcanDriver.content (SlcanDriver.swallowed (SlcanDriver.steps (env cfg utf8) s hist).trace)) ++
        Slcan.framesOf (SlcanDriver.handed (SlcanDriver.steps (env cfg utf8) s hist).trace) ++
        Slcan.framesOf (SlcanDriver.content (SlcanDriver.steps (env cfg utf8) s hist).rx) =
      (Slcan.linesOf [] (SlcanDriver.received (SlcanDriver.steps (env cfg utf8) s hist).trace)).filterMap Slcan.frameOf

/-- The real-time clock is set back between two frames. -/
theorem C100_counterexample : ¬ C100_statement := by
  intro h
  have := h ⟨some 60, 200 / 1000000, 2 / 10000, 1 / 10⟩ (fun _ => true) { worker := { est := {} } }
    [.announce, .construct, .read ("T0000000100000\r".toList.map Slcan.ch) (10, 10) 0, .read ("T0000000200001\r".toList.map Slcan.ch) (11, 5) 0]
    (by decide +kernel) ⟨rfl, rfl, rfl, rfl, rfl, ⟨rfl, rfl, rfl, rfl, rfl⟩, rfl, rfl, rfl, rfl, rfl, rfl⟩ rfl (by decide +kernel)
  revert this
  decide +kernel

/-! ## Cases -/

/-- Two frame lines with time stamps, one of them read in two pieces, and one without: the first line has the times of the second read. -/
example : (Slcan.run (env ⟨some 60, 200 / 1000000, 0, 1 / 10⟩ fun _ => true) { est := {} }
    [⟨"T00000001000".toList.map Slcan.ch, (1, 101), 0, []⟩, ⟨"07\rT000000020\r".toList.map Slcan.ch, (2, 102), 0, []⟩,
      ⟨"T000000030000A\r".toList.map Slcan.ch, (3, 103), 0, []⟩]).out =
    [.frame ⟨1, [], true, false⟩ (2, 102), .frame ⟨2, [], true, false⟩ (2, 102), .frame ⟨3, [], true, false⟩ (3, 103)] := by decide +kernel

/-- The defaults, and a slow adapter behind a UART. -/
example : config none none none = .ok ⟨some 60, 1 / 5000, 1 / 5000, 1 / 10⟩ ∧ config (some 500) (some 0) (some 2) = .ok ⟨some 60, 1 / 2000, 0, 2⟩ ∧
    config (some (-1)) none none = .error .valueError ∧ config none none (some (-1)) = .error .valueError := by decide +kernel

/-- The adapter's clock overflows between the events, and a line has no time stamp. -/
def seen : List Line := [⟨some 59990, 100, 1000⟩, ⟨none, 1005 / 10, 1001⟩, ⟨some 10, 10003 / 100, 100003 / 100⟩]
def truth : List Event := [⟨59990 / 1000, 0, 100, 1000, 100, 1000⟩, ⟨60010 / 1000, 1, 10002 / 100, 100002 / 100, 10003 / 100, 100003 / 100⟩]

example : Lines truth seen ∧ Sane truth ∧
    (run ⟨some 60, 200 / 1000000, 0, 1 / 10⟩ {} seen).1 =
      [some (100, 1000), some (1005 / 10, 1001), some (10002 / 100 + 4 / 1000000, 100002 / 100 + 4 / 1000000)] := by
  refine ⟨.stamped _ _ _ _ ⟨59990, rfl, by decide +kernel, rfl, rfl⟩ (.plain _ _ _ rfl (.stamped _ _ _ _ ⟨10, rfl, by decide +kernel, rfl, rfl⟩ .nil)),
    ⟨⟨⟨by decide +kernel, ?_⟩, trivial⟩, ⟨⟨by decide +kernel, ?_⟩, trivial⟩, by simp; decide +kernel⟩, by decide +kernel⟩ <;>
    (intro p hp; injection hp with hp; subst hp; decide +kernel)

/-- The clock is set back by an hour: one frame is lost, with the next one the estimator synchronises again. -/
example : (run ⟨some 60, 200 / 1000000, 0, 1 / 10⟩ {} [⟨some 1000, 100, 5000⟩, ⟨some 2000, 101, 1401⟩, ⟨some 3000, 102, 1402⟩]).1 =
    [some (100, 5000), none, some (102, 1402)] := by decide +kernel

end SlcanTime
end Dronecan
