import Verif.Model.Collector
import Verif.Proofs.Dict

/-!
# The message collector (C43)
-/

namespace Dronecan
namespace Coll
open PyM
variable {κ : Type} [DecidableEq κ] (adv : Nat → Nat) (timeout : Option Int)

/-! ## Specification -/

/-- The message stored by an operation under key `k`, if any. -/
def stores (k : κ) : Op κ → Option Msg
  | .receive (.ok k') m => if k' = k then some m else none
  | _ => none

/-- The most recent message stored under `k` in a history. -/
def latest (k : κ) (ops : List (Op κ)) : Option Msg := (ops.filterMap (stores k)).getLast?

/-- Is the message older than the timeout at time `t`? Without a timeout messages never get old. -/
def old (timeout : Option Int) (t : Int) (m : Msg) : Bool :=
  match timeout with
  | none => false
  | some d => m.ts + d < t

/-! ## Proofs -/

/-- The storage holds the latest messages, except for some that were already old. -/
structure Inv (ops : List (Op κ)) (s : Coll κ) : Prop where
  ok : s.storage.Ok
  rel : ∀ k, s.storage.get? k = latest k ops ∨
    (s.storage.get? k = none ∧ ∃ m, latest k ops = some m ∧ old timeout s.clock.now m = true)

theorem tick_le (c : Clock) : c.now ≤ (c.tick adv).now := by simp [Clock.tick]; omega

theorem old_mono {t t' : Int} (h : t ≤ t') {m : Msg} (ho : old timeout t m = true) : old timeout t' m = true := by
  cases timeout with
  | none => cases ho
  | some d => simp only [old, decide_eq_true_eq] at *; omega

variable {timeout}

theorem Inv.clock {ops : List (Op κ)} {s : Coll κ} (h : Inv timeout ops s) {c : Clock} (hc : s.clock.now ≤ c.now) :
    Inv timeout ops { s with clock := c } := by
  refine ⟨h.ok, fun k => ?_⟩
  rcases h.rel k with h1 | ⟨h1, m, h2, h3⟩
  · exact .inl h1
  · exact .inr ⟨h1, m, h2, old_mono timeout hc h3⟩

/-- What `__getitem__` does, in one piece: `t` is the time at which it looks at the clock. -/
theorem getitem_eq {s : Coll κ} (hok : s.storage.Ok) (k : κ) : ∃ (t : Int) (s' : Coll κ),
    s.clock.now ≤ t ∧ t = s'.clock.now ∧ getitem adv timeout k s =
      (match s.storage.get? k with
        | some m => if old timeout t m then .error .keyError else .ok m
        | none => .error .keyError, s') ∧
    (∀ k', s'.storage.get? k' = if k' = k ∧ (∃ m, s.storage.get? k = some m ∧ old timeout t m = true) then none
      else s.storage.get? k') ∧ s'.storage.Ok ∧ (s'.storage = s.storage ∨ s'.storage = s.storage.del k) := by
  cases timeout with
  | none =>
    refine ⟨s.clock.now, s, Int.le_refl _, rfl, ?_, ?_, hok, .inl rfl⟩
    · simp only [getitem, purge, bind_run, pure_run, lookup, old]
      cases hg : s.storage.get? k <;> simp
    · intro k'
      simp [old]
  | some d =>
    cases hg : s.storage.get? k with
    | none =>
      refine ⟨s.clock.now, s, Int.le_refl _, rfl, ?_, ?_, hok, .inl rfl⟩
      · simp only [getitem, purge, bind_run, lookup, hg]
      · intro k'; simp
    | some m =>
      by_cases ho : m.ts + d < (s.clock.tick adv).now
      · refine ⟨(s.clock.tick adv).now, { s with storage := s.storage.del k, clock := s.clock.tick adv }, tick_le adv _,
          rfl, ?_, ?_, Dict.ok_del hok k, .inr rfl⟩
        · simp only [getitem, purge, bind_run, lookup, hg, ho, if_true, Dict.get?_del_self hok, old, decide_true]
        · intro k'
          by_cases hk : k' = k
          · subst hk; simp [Dict.get?_del_self hok, ho, old]
          · rw [Dict.get?_del_ne _ (Ne.symm hk), if_neg (fun h => hk h.1)]
      · refine ⟨(s.clock.tick adv).now, { s with clock := s.clock.tick adv }, tick_le adv _, rfl, ?_, ?_, hok, .inl rfl⟩
        · simp only [getitem, purge, bind_run, lookup, hg, ho, if_false, old, decide_false, Bool.false_eq_true]
        · intro k'
          rw [if_neg]
          rintro ⟨-, m', hm', ho'⟩
          injection hm' with hm'
          subst hm'
          simp [old, ho] at ho'

theorem Inv.getitem {ops : List (Op κ)} {s : Coll κ} (h : Inv timeout ops s) (k : κ) :
    Inv timeout ops (Coll.getitem adv timeout k s).2 := by
  obtain ⟨t, s', h1, h2, h3, h4, h5, -⟩ := getitem_eq adv (timeout := timeout) h.ok k
  rw [h3]
  refine ⟨h5, fun k' => ?_⟩
  show s'.storage.get? k' = _ ∨ (s'.storage.get? k' = none ∧ _)
  rw [h4 k']
  split
  · rename_i hk
    obtain ⟨rfl, m, hm, ho⟩ := hk
    right
    refine ⟨rfl, m, ?_, h2 ▸ ho⟩
    rcases h.rel k' with h' | ⟨h', -⟩
    · rw [← h', hm]
    · rw [hm] at h'; cases h'
  · rcases h.rel k' with h' | ⟨h', m, hm, ho⟩
    · exact .inl h'
    · exact .inr ⟨h', m, hm, old_mono timeout (h2 ▸ h1) ho⟩

theorem touch_state (k : κ) (s : Coll κ) : touch adv timeout k s = (.ok (), (Coll.getitem adv timeout k s).2) := by
  simp only [touch, PyM.tryCatch, bind_run]
  cases Coll.getitem adv timeout k s with
  | mk r s' => cases r <;> rfl

theorem contains_state (k : κ) (s : Coll κ) : Coll.contains adv timeout k s =
    (.ok (match (Coll.getitem adv timeout k s).1 with | .ok _ => true | .error _ => false),
      (Coll.getitem adv timeout k s).2) := by
  simp only [Coll.contains, PyM.tryCatch, bind_run]
  cases Coll.getitem adv timeout k s with
  | mk r s' => cases r <;> rfl

theorem touches_ok (ks : List κ) : ∀ (s : Coll κ), ∃ s', forEach ks (touch adv timeout) s = (.ok (), s') := by
  induction ks with
  | nil => intro s; exact ⟨s, rfl⟩
  | cons k ks ih =>
    intro s
    simp only [forEach, bind_run, touch_state]
    exact ih _

theorem touches_inv {ops : List (Op κ)} (ks : List κ) : ∀ {s : Coll κ}, Inv timeout ops s →
    Inv timeout ops (forEach ks (touch adv timeout) s).2 := by
  induction ks with
  | nil => intro s h; exact h
  | cons k ks ih =>
    intro s h
    simp only [forEach, bind_run, touch_state]
    exact ih (h.getitem adv k)

theorem iter_state (s : Coll κ) : (iter adv timeout s).2 = (forEach s.storage.keys (touch adv timeout) s).2 ∧
    (iter adv timeout s).1 = .ok (forEach s.storage.keys (touch adv timeout) s).2.storage.keys := by
  obtain ⟨s', h⟩ := touches_ok adv (timeout := timeout) s.storage.keys s
  simp only [iter, bind_run, get_run, h, pure_run]
  exact ⟨trivial, trivial⟩

theorem latest_snoc (k : κ) (ops : List (Op κ)) (op : Op κ) :
    latest k (ops ++ [op]) = match stores k op with | some m => some m | none => latest k ops := by
  simp only [latest, List.filterMap_append, List.filterMap_cons, List.filterMap_nil]
  cases stores k op <;> simp

theorem Inv.silent {ops : List (Op κ)} {op : Op κ} (hs : ∀ k, stores k op = none) {s : Coll κ} (h : Inv timeout ops s) :
    Inv timeout (ops ++ [op]) s := by
  refine ⟨h.ok, fun k => ?_⟩
  rw [latest_snoc, hs k]
  exact h.rel k

theorem step_inv {ops : List (Op κ)} {s : Coll κ} (h : Inv timeout ops s) (op : Op κ) :
    Inv timeout (ops ++ [op]) (step adv timeout s op) := by
  cases op with
  | receive key m =>
    cases key with
    | error e => exact h.silent (fun _ => rfl)
    | ok k =>
      refine ⟨Dict.ok_set h.ok k m, fun k' => ?_⟩
      rw [latest_snoc]
      show (s.storage.set k m).get? k' = _ ∨ ((s.storage.set k m).get? k' = none ∧ _)
      by_cases hk : k = k'
      · subst hk
        left
        simp [stores]
      · rw [Dict.get?_set_ne _ _ hk]
        simp only [stores, if_neg hk]
        exact h.rel k'
  | getitem k => exact (h.getitem adv k).silent (fun _ => rfl)
  | contains k =>
    simp only [step, contains_state]
    exact (h.getitem adv k).silent (fun _ => rfl)
  | iter =>
    simp only [step, (iter_state adv s).1]
    exact (touches_inv adv _ h).silent (fun _ => rfl)
  | len => exact h.silent (fun _ => rfl)

theorem run_inv (c : Clock) (ops : List (Op κ)) : Inv timeout ops (run adv timeout { clock := c } ops) := by
  suffices ∀ (pre : List (Op κ)) (s : Coll κ), Inv timeout pre s → Inv timeout (pre ++ ops) (run adv timeout s ops) from
    this [] { clock := c } ⟨Dict.ok_nil, fun k => .inl rfl⟩
  induction ops with
  | nil => intro pre s h; rw [List.append_nil]; exact h
  | cons op ops ih =>
    intro pre s h
    have := ih (pre ++ [op]) _ (step_inv adv h op)
    rw [List.append_assoc] at this
    exact this

/-! ## C43 -/

variable (timeout)

/-- What looking up a key returns at time `t` according to the history. -/
def expected (ops : List (Op κ)) (k : κ) (t : Int) : Except Err Msg :=
  match latest k ops with
  | some m => if old timeout t m then .error .keyError else .ok m
  | none => .error .keyError

/-- Lookup of a key returns the most recent message stored under it if that is not older than the timeout, and raises
`KeyError` otherwise; `t` is a time between the beginning and the end of the call. -/
theorem C43_getitem (c : Clock) (ops : List (Op κ)) (k : κ) : ∃ t,
    (run adv timeout { clock := c } ops).clock.now ≤ t ∧
    t ≤ (getitem adv timeout k (run adv timeout { clock := c } ops)).2.clock.now ∧
    (getitem adv timeout k (run adv timeout { clock := c } ops)).1 = expected timeout ops k t := by
  have hi := run_inv adv (timeout := timeout) c ops
  obtain ⟨t, s', h1, h2, h3, -⟩ := getitem_eq adv (timeout := timeout) hi.ok k
  rw [h3]
  refine ⟨t, h1, Int.le_of_eq h2, ?_⟩
  simp only [expected]
  rcases hi.rel k with h | ⟨h, m, hm, ho⟩
  · rw [h]
  · rw [h, hm]
    simp [old_mono timeout h1 ho]

/-- `in` agrees with lookup. -/
theorem C43_contains (c : Clock) (ops : List (Op κ)) (k : κ) : ∃ t,
    (run adv timeout { clock := c } ops).clock.now ≤ t ∧
    t ≤ (contains adv timeout k (run adv timeout { clock := c } ops)).2.clock.now ∧
    (contains adv timeout k (run adv timeout { clock := c } ops)).1 =
      .ok (match expected timeout ops k t with | .ok _ => true | .error _ => false) := by
  obtain ⟨t, h1, h2, h3⟩ := C43_getitem adv timeout c ops k
  rw [contains_state]
  exact ⟨t, h1, h2, by rw [h3]⟩

theorem touches_get (ks : List κ) : ∀ (s : Coll κ), s.storage.Ok → ks.Nodup →
    let s' := (forEach ks (touch adv timeout) s).2
    s.clock.now ≤ s'.clock.now ∧ s'.storage.Ok ∧
    ∀ k, (s'.storage.get? k = s.storage.get? k ∧
          (k ∈ ks → ∀ m, s.storage.get? k = some m → old timeout s.clock.now m = false)) ∨
      (s'.storage.get? k = none ∧ k ∈ ks ∧ ∃ m, s.storage.get? k = some m ∧ old timeout s'.clock.now m = true) := by
  induction ks with
  | nil => intro s hok _; exact ⟨Int.le_refl _, hok, fun k => .inl ⟨rfl, fun h => (List.not_mem_nil h).elim⟩⟩
  | cons k ks ih =>
    intro s hok hnd
    obtain ⟨hk, hnd⟩ := List.nodup_cons.1 hnd
    obtain ⟨t, s1, h1, h2, h3, h4, h5, -⟩ := getitem_eq adv (timeout := timeout) hok k
    simp only [forEach, bind_run, touch_state]
    rw [h3]
    obtain ⟨i1, i2, i3⟩ := ih s1 h5 hnd
    dsimp only
    refine ⟨by omega, i2, fun k' => ?_⟩
    have h4 := h4 k'
    by_cases hkk : k' = k
    · subst hkk
      rcases i3 k' with ⟨h6, -⟩ | ⟨-, hm, -⟩
      · by_cases ho : ∃ m, s.storage.get? k' = some m ∧ old timeout t m = true
        · rw [if_pos ⟨rfl, ho⟩] at h4
          obtain ⟨m, hm, ho⟩ := ho
          exact .inr ⟨h6.trans h4, List.mem_cons_self, m, hm, old_mono timeout (by omega) ho⟩
        · rw [if_neg (fun h => ho h.2)] at h4
          refine .inl ⟨h6.trans h4, fun _ m hm => ?_⟩
          cases hb : old timeout s.clock.now m
          · rfl
          · exact absurd ⟨m, hm, old_mono timeout h1 hb⟩ ho
      · exact absurd hm hk
    · rw [if_neg (fun h => hkk h.1)] at h4
      rcases i3 k' with ⟨h6, h7⟩ | ⟨h6, hm, m, hg, ho⟩
      · refine .inl ⟨h6.trans h4, fun hm m hg => ?_⟩
        rcases List.mem_cons.1 hm with h | hm
        · exact absurd h hkk
        · have := h7 hm m (h4.trans hg)
          cases hb : old timeout s.clock.now m
          · rfl
          · rw [old_mono timeout (by omega) hb] at this; cases this
      · exact .inr ⟨h6, List.mem_cons_of_mem _ hm, m, h4 ▸ hg, ho⟩

/-- Iteration yields every key at most once; it yields only keys whose latest message was fresh when the iteration
began, and all keys whose latest message is still fresh when it ends. -/
theorem C43_iter (c : Clock) (ops : List (Op κ)) : ∃ ks s',
    iter adv timeout (run adv timeout { clock := c } ops) = (.ok ks, s') ∧ ks.Nodup ∧
    (∀ k, k ∈ ks → ∃ m, latest k ops = some m ∧ old timeout (run adv timeout { clock := c } ops).clock.now m = false) ∧
    (∀ k m, latest k ops = some m → old timeout s'.clock.now m = false → k ∈ ks) := by
  have hi := run_inv adv (timeout := timeout) c ops
  generalize hs : run adv timeout { clock := c } ops = s at hi
  obtain ⟨h1, h2⟩ := iter_state adv (timeout := timeout) s
  obtain ⟨i1, i2, i3⟩ := touches_get adv timeout s.storage.keys s hi.ok hi.ok
  have hf := touches_inv adv (timeout := timeout) s.storage.keys hi
  refine ⟨_, _, Prod.ext h2 h1, i2, ?_, ?_⟩
  · intro k hk
    obtain ⟨m, hm⟩ := Option.isSome_iff_exists.1 ((Dict.mem_keys_iff _ _).1 hk)
    rcases i3 k with ⟨h3, h4⟩ | ⟨h3, -⟩
    · rw [h3] at hm
      refine ⟨m, ?_, h4 ((Dict.mem_keys_iff _ _).2 (by rw [hm]; rfl)) m hm⟩
      rcases hi.rel k with h | ⟨h, -⟩
      · rw [← h, hm]
      · rw [h] at hm; cases hm
    · rw [h3] at hm; cases hm
  · intro k m hl ho
    apply (Dict.mem_keys_iff _ _).2
    rcases hf.rel k with h | ⟨-, m', hm', ho'⟩
    · rw [h, hl]; rfl
    · rw [hl] at hm'
      injection hm' with hm'
      subst hm'
      rw [ho] at ho'; cases ho'

/-- If the clock stands still during the iteration, the keys are exactly those whose latest message is fresh. -/
theorem C43_iter_exact (c : Clock) (ops : List (Op κ)) (ks : List κ) (s' : Coll κ)
    (h : iter adv timeout (run adv timeout { clock := c } ops) = (.ok ks, s'))
    (hc : s'.clock.now = (run adv timeout { clock := c } ops).clock.now) (k : κ) :
    k ∈ ks ↔ ∃ m, expected timeout ops k s'.clock.now = .ok m := by
  obtain ⟨ks', s'', h1, -, h3, h4⟩ := C43_iter adv timeout c ops
  rw [h] at h1
  injection h1 with h1 h2
  injection h1 with h1
  subst h1 h2
  constructor
  · intro hk
    obtain ⟨m, hm, ho⟩ := h3 k hk
    refine ⟨m, ?_⟩
    simp [expected, hm, hc, ho]
  · rintro ⟨m, hm⟩
    simp only [expected] at hm
    split at hm
    · rename_i m' hm'
      split at hm
      · cases hm
      · rename_i ho
        exact h4 k m' hm' (by simpa using ho)
    · cases hm

/-- `len` counts keys under which a message was stored, each once, among them all whose latest message is fresh. -/
theorem C43_len (c : Clock) (ops : List (Op κ)) : ∃ ks : List κ,
    (len (run adv timeout { clock := c } ops)).1 = .ok ks.length ∧ ks.Nodup ∧ (∀ k ∈ ks, ∃ m, latest k ops = some m) ∧
    (∀ k m, latest k ops = some m → old timeout (run adv timeout { clock := c } ops).clock.now m = false → k ∈ ks) := by
  have hi := run_inv adv (timeout := timeout) c ops
  generalize run adv timeout { clock := c } ops = s at hi
  refine ⟨s.storage.keys, by simp [len, bind_run, get_run, pure_run, Dict.keys], hi.ok, fun k hk => ?_, fun k m hm ho => ?_⟩
  · obtain ⟨m, hm⟩ := Option.isSome_iff_exists.1 ((Dict.mem_keys_iff _ _).1 hk)
    rcases hi.rel k with h | ⟨h, m', h', -⟩
    · exact ⟨m, by rw [← h, hm]⟩
    · exact ⟨m', h'⟩
  · apply (Dict.mem_keys_iff _ _).2
    rcases hi.rel k with h | ⟨-, m', hm', ho'⟩
    · rw [h, hm]; rfl
    · rw [hm] at hm'
      injection hm' with hm'
      subst hm'
      rw [ho] at ho'; cases ho'

/-- After an iteration `len` is the number of keys that it yields. -/
theorem C43_len_iter (s : Coll κ) : ∃ ks s', iter adv timeout s = (.ok ks, s') ∧ len s' = (.ok ks.length, s') := by
  obtain ⟨h1, h2⟩ := iter_state adv (timeout := timeout) s
  exact ⟨_, _, Prod.ext h2 h1, by simp [len, bind_run, get_run, pure_run, Dict.keys]⟩

/-- Before it, old messages count. -/
example : (len (run (fun _ => 5) (some 10) { clock := ⟨10, 0⟩ } [.receive (.ok 1) ⟨0, 100⟩, .receive (.ok 2) ⟨20, 200⟩, .getitem 2])).1 = .ok 2 := by
  decide +kernel

/-! An example: two keys, one of them too old when read. -/

example : (getitem (fun _ => 5) (some 10) 1 (run (fun _ => 5) (some 10) { clock := ⟨0, 0⟩ }
    [.receive (.ok 1) ⟨0, 100⟩, .receive (.ok 2) ⟨0, 200⟩, .receive (.ok 1) ⟨1, 101⟩, .getitem 2])).1 = .ok ⟨1, 101⟩ := by
  decide +kernel
example : (iter (fun _ => 5) (some 10) (run (fun _ => 5) (some 10) { clock := ⟨0, 0⟩ }
    [.receive (.ok 1) ⟨0, 100⟩, .receive (.ok 2) ⟨20, 200⟩, .getitem 2])).1 = .ok [1, 2] := by decide +kernel
example : (iter (fun _ => 5) (some 10) (run (fun _ => 5) (some 10) { clock := ⟨10, 0⟩ }
    [.receive (.ok 1) ⟨0, 100⟩, .receive (.ok 2) ⟨20, 200⟩, .getitem 2])).1 = .ok [2] := by decide +kernel

end Coll
end Dronecan
