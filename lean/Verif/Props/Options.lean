import Verif.Model.Options

/-!
# C147: the options of `make_node` take effect

The specification says which option sets what and what its default is. An option counts as given if it is there and not `None`.
-/

namespace Dronecan
namespace Options
open Parser Text

/-- What an option is: the value given, or else the default. -/
def effective (kw : Kwargs) (n : String) (d : Val) : Val :=
  match get? kw (lit n) with
  | some v => if v = .none then d else v
  | none => d

/-! ## Binding -/

theorem has_iff (kw : Kwargs) (k : Str) : has kw k = false ↔ get? kw k = none := by
  simp only [has, get?]
  induction kw with
  | nil => simp
  | cons p kw ih =>
    rw [List.any_cons, Bool.or_eq_false_iff, List.lookup_cons, ih]
    have e : (p.1 == k) = (k == p.1) := by rw [Bool.eq_iff_iff, beq_iff_eq, beq_iff_eq]; exact eq_comm
    rw [e]
    cases h : (k == p.1) <;> simp

theorem get_filter (kw : Kwargs) (f : Str → Bool) (k : Str) : get? (kw.filter fun p => f p.1) k = if f k then get? kw k else none := by
  simp only [get?]
  induction kw with
  | nil => simp
  | cons p kw ih =>
    obtain ⟨x, v⟩ := p
    rw [List.filter_cons]
    cases hk : (k == x) with
    | false =>
      simp only
      split
      · rw [List.lookup_cons, List.lookup_cons, hk]; exact ih
      · rw [List.lookup_cons, hk]; exact ih
    | true =>
      have : k = x := by simpa using hk
      subst this
      simp only
      split
      · rename_i hf; rw [List.lookup_cons]; simp
      · rename_i hf; rw [ih, if_neg hf]

theorem get_append (a b : Kwargs) (k : Str) : get? (a ++ b) k = (get? a k).or (get? b k) := by
  simp only [get?]
  induction a with
  | nil => rfl
  | cons p a ih =>
    rw [List.cons_append, List.lookup_cons, List.lookup_cons]
    cases h : (k == p.1) <;> simp [ih]

theorem get_put (k n : Str) (v : Val) (kw : Kwargs) : get? (put n v kw) k = if k = n then some v else get? kw k := by
  simp only [put]
  rw [get_append, get_filter kw (fun x => x != n)]
  by_cases h : k = n
  · simp [h, get?]
  · have : (k != n) = true := by simpa using h
    have hb : (k == n) = false := by simpa using h
    simp [h, get?, List.lookup_cons, hb]

/-- The value of a parameter. -/
def val (kw : Kwargs) (p : Param) : Str × Val := (p.1, (get? kw p.1).getD (p.2.getD .none))

theorem fill_ok (kw : Kwargs) (ps : List Param) (h : ∀ p ∈ ps, p.2 = none → get? kw p.1 ≠ none) : fill kw ps = .ok (ps.map (val kw)) := by
  induction ps with
  | nil => rfl
  | cons p ps ih =>
    obtain ⟨n, d⟩ := p
    have ih := ih (fun q hq => h q (List.mem_cons_of_mem _ hq))
    simp only [fill]
    have hp := h (n, d) (List.mem_cons_self ..)
    simp only at hp
    cases hg : get? kw n with
    | some v => simp [ih, Except.map, val, hg]
    | none =>
      cases d with
      | none => exact absurd hg (hp rfl)
      | some v => simp [ih, Except.map, val, hg]

theorem get_vals (kw : Kwargs) (ps : List Param) (hd : (ps.map Prod.fst).Nodup) (p : Param) (hp : p ∈ ps) :
    get? (ps.map (val kw)) p.1 = some ((get? kw p.1).getD (p.2.getD .none)) := by
  induction ps with
  | nil => exact nomatch hp
  | cons q ps ih =>
    simp only [List.map_cons, List.nodup_cons] at hd
    rcases List.mem_cons.1 hp with rfl | hp
    · simp [get?, val, List.lookup_cons]
    · have hne : p.1 ≠ q.1 := by
        intro e
        exact hd.1 (by rw [← e]; exact List.mem_map_of_mem hp)
      have hb : (p.1 == (val kw q).1) = false := by simpa [val] using hne
      have := ih hd.2 hp
      simp only [get?] at this ⊢
      rw [List.map_cons, List.lookup_cons, hb]
      exact this

theorem filter_all {α : Type} (l : List α) : (l.filter fun _ => true) = l := by simp

/-! ## The parts -/

/-- The parameters of `_io_process` without the device. -/
def ioRest : List Param := ioParams.drop 1

/-- The arguments that the new process is started with. -/
def started (kw : Kwargs) : Kwargs :=
  put (lit "parent_pid") (.obj 4) (put (lit "log_queue") (.obj 3) (put (lit "tx_queue") (.obj 2) (put (lit "rx_queue") (.obj 1)
    (kw.filter fun p => ioParams.any fun q => q.1 == p.1))))

theorem slcan_eq (name : Str) (kw : Kwargs) (h1 : get? kw (lit "self") = none) (h2 : get? kw (lit "device_name") = none)
    (h3 : get? kw (lit "device") = none) :
    slcan name kw = match ioProcess ((lit "device", .str name) :: ioRest.map (val (started kw))) with
      | .error _ => .error .driverError
      | .ok c => .ok c := by
  have b1 : bind [(lit "self", none), (lit "device_name", none)] true [.obj 0, .str name] kw =
      .ok ([(lit "self", .obj 0), (lit "device_name", .str name)], kw) := by
    simp only [bind]
    simp [(has_iff _ _).2 h1, (has_iff _ _).2 h2, fill, Except.map]
  have hdev : get? (started kw) (lit "device") = none := by
    simp only [started]
    rw [get_put, get_put, get_put, get_put, get_filter kw (fun x => ioParams.any fun q => q.1 == x), h3]
    rw [if_neg (by decide), if_neg (by decide), if_neg (by decide), if_neg (by decide)]
    split <;> rfl
  have b2 : bind ioParams false [.str name] (started kw) = .ok ((lit "device", .str name) :: ioRest.map (val (started kw)), []) := by
    have hextra : ((started kw).filter fun p => !(ioParams.drop 1).any fun q => q.1 == p.1) = [] := by
      rw [List.filter_eq_nil_iff]
      intro p hp
      simp only [Bool.not_eq_true', Bool.not_eq_false]
      have known : ioParams.any (fun q => q.1 == p.1) = true := by
        simp only [started, put, List.mem_append, List.mem_filter, List.mem_singleton] at hp
        rcases hp with ⟨⟨⟨⟨⟨_, hp⟩, _⟩ | hp, _⟩ | hp, _⟩ | hp, _⟩ | hp
        · exact hp
        all_goals (subst hp; decide)
      have hnd : p.1 ≠ lit "device" := by
        intro e
        have hh : has (started kw) (lit "device") = true := by
          simp only [has, List.any_eq_true]
          exact ⟨p, hp, by simp [e]⟩
        rw [(has_iff _ _).2 hdev] at hh
        exact nomatch hh
      have : ioParams = (lit "device", none) :: ioParams.drop 1 := rfl
      rw [this, List.any_cons, Bool.or_eq_true] at known
      rcases known with k | k
      · exact absurd (by simpa using k : lit "device" = p.1).symm hnd
      · exact k
    have hfill : fill (started kw) (ioParams.drop 1) = .ok (ioRest.map (val (started kw))) := by
      refine fill_ok _ _ ?_
      intro p hp hn
      simp only [started]
      rw [get_put, get_put, get_put, get_put]
      have hp' : p.1 = lit "tx_queue" ∨ p.1 = lit "rx_queue" ∨ p.1 = lit "log_queue" ∨ p.1 = lit "parent_pid" := by
        have hall : ∀ p ∈ ioParams.drop 1, p.2 = none → p.1 = lit "tx_queue" ∨ p.1 = lit "rx_queue" ∨ p.1 = lit "log_queue" ∨ p.1 = lit "parent_pid" := by
          decide
        exact hall p hp hn
      rcases hp' with e | e | e | e <;> rw [e] <;> repeat' split
      all_goals simp_all
    simp only [bind]
    rw [if_neg (by simp [ioParams])]
    have ht : ((ioParams.take [Val.str name].length).map Prod.fst).any (fun n => has (started kw) n) = false := by
      have : (ioParams.take [Val.str name].length).map Prod.fst = [lit "device"] := rfl
      rw [this]
      simp [(has_iff _ _).2 hdev]
    rw [if_neg (by rw [ht]; exact Bool.false_ne_true)]
    have hl : [Val.str name].length = 1 := rfl
    rw [hl, hextra, hfill]
    rfl
  simp only [slcan, b1]
  have : (put (lit "parent_pid") (.obj 4) (put (lit "log_queue") (.obj 3) (put (lit "tx_queue") (.obj 2) (put (lit "rx_queue") (.obj 1)
    (kw.filter fun p => ioParams.any fun q => q.1 == p.1))))) = started kw := rfl
  rw [this, b2]
  rfl

theorem started_get (kw : Kwargs) (n : Str) (hn : n ∈ [lit "bitrate", lit "baudrate", lit "max_adapter_clock_rate_error_ppm", lit "fixed_rx_delay",
    lit "max_estimated_rx_delay_to_resync", lit "auto_reopen"]) : get? (started kw) n = get? kw n := by
  have h1 : n ≠ lit "parent_pid" ∧ n ≠ lit "log_queue" ∧ n ≠ lit "tx_queue" ∧ n ≠ lit "rx_queue" ∧ ioParams.any (fun q => q.1 == n) = true := by
    have hall : ∀ n ∈ [lit "bitrate", lit "baudrate", lit "max_adapter_clock_rate_error_ppm", lit "fixed_rx_delay",
      lit "max_estimated_rx_delay_to_resync", lit "auto_reopen"], n ≠ lit "parent_pid" ∧ n ≠ lit "log_queue" ∧ n ≠ lit "tx_queue" ∧ n ≠ lit "rx_queue" ∧
      ioParams.any (fun q => q.1 == n) = true := by decide
    exact hall n hn
  simp only [started]
  rw [get_put, get_put, get_put, get_put, get_filter kw (fun x => ioParams.any fun q => q.1 == x)]
  simp [h1]

/-- The value of a parameter of the new process. -/
theorem io_arg (name : Str) (kw : Kwargs) (n : String) (d : Val) (hn : lit n ∈ [lit "bitrate", lit "baudrate", lit "max_adapter_clock_rate_error_ppm",
    lit "fixed_rx_delay", lit "max_estimated_rx_delay_to_resync", lit "auto_reopen"]) (hp : (lit n, some d) ∈ ioRest) :
    arg ((lit "device", .str name) :: ioRest.map (val (started kw))) n = (get? kw (lit n)).getD d := by
  have h1 := get_vals (started kw) ioRest (by decide) (lit n, some d) hp
  have h2 : (lit n == lit "device") = false := by
    have hall : ∀ n ∈ [lit "bitrate", lit "baudrate", lit "max_adapter_clock_rate_error_ppm", lit "fixed_rx_delay",
      lit "max_estimated_rx_delay_to_resync", lit "auto_reopen"], (n == lit "device") = false := by decide
    exact hall _ hn
  simp only [arg, get?] at h1 ⊢
  rw [List.lookup_cons, h2]
  simp only
  rw [h1]
  have h3 := started_get kw (lit n) hn
  simp only [get?] at h3
  rw [h3]
  rfl

theorem ifNone_eff (kw : Kwargs) (n : String) (d : Val) : ifNone ((get? kw (lit n)).getD .none) d = effective kw n d := by
  simp only [ifNone, effective]
  cases get? kw (lit n) with
  | none => simp
  | some v => simp

/-- What the process works with, by the options. -/
theorem slcan_options (name : Str) (kw : Kwargs) (h1 : get? kw (lit "self") = none) (h2 : get? kw (lit "device_name") = none)
    (h3 : get? kw (lit "device") = none) :
    slcan name kw = (do
      let rate ← number (effective kw "max_adapter_clock_rate_error_ppm" (.num 200))
      let (r, d, s) ← estimator (rate / 1000000) (effective kw "fixed_rx_delay" (.num (2 / 10000)))
        (orElse ((get? kw (lit "max_estimated_rx_delay_to_resync")).getD .none) (.num (1 / 10)))
      .ok (Slcan.mk (.str name) (orElse ((get? kw (lit "baudrate")).getD .none) (.num 3000000)) (effective kw "bitrate" (.num 1000000)) r d s
        (truthy ((get? kw (lit "auto_reopen")).getD (.num 1)))) : Except Err Slcan).mapError (fun _ => .driverError) := by
  rw [slcan_eq name kw h1 h2 h3]
  simp only [ioProcess]
  rw [io_arg name kw "max_adapter_clock_rate_error_ppm" .none (by decide) (by decide), io_arg name kw "fixed_rx_delay" .none (by decide) (by decide),
    io_arg name kw "max_estimated_rx_delay_to_resync" .none (by decide) (by decide), io_arg name kw "baudrate" .none (by decide) (by decide),
    io_arg name kw "bitrate" .none (by decide) (by decide), io_arg name kw "auto_reopen" (.num 1) (by decide) (by decide),
    ifNone_eff, ifNone_eff, ifNone_eff]
  have hd : arg ((lit "device", .str name) :: ioRest.map (val (started kw))) "device" = .str name := by
    simp [arg, get?, List.lookup_cons]
  rw [hd]
  cases number (effective kw "max_adapter_clock_rate_error_ppm" (.num 200)) with
  | error e => rfl
  | ok r =>
    simp only [Except.bind, Bind.bind]
    cases estimator (r / 1000000) (effective kw "fixed_rx_delay" (.num (2 / 10000)))
        (orElse ((get? kw (lit "max_estimated_rx_delay_to_resync")).getD .none) (.num (1 / 10))) with
    | error e => rfl
    | ok x => rfl

/-- The value of an option whose default is not `None`: what was given, even if it is `None`. -/
def given (kw : Kwargs) (n : String) (d : Val) : Val := (get? kw (lit n)).getD d

/-- The parameters of `Node.__init__` that can be given by name. -/
def nodeRest : List Param := nodeParams.drop 2

theorem node_arg (can : Val) (kw : Kwargs) (n : String) (d : Val) (h1 : (lit n == lit "self") = false) (h2 : (lit n == lit "can_driver") = false)
    (hp : (lit n, some d) ∈ nodeRest) :
    arg ((lit "self", .obj 0) :: (lit "can_driver", can) :: nodeRest.map (val kw)) n = given kw n d := by
  have h := get_vals kw nodeRest (by decide) (lit n, some d) hp
  simp only [arg, given, get?] at h ⊢
  rw [List.lookup_cons, h1, List.lookup_cons, h2]
  simp only
  rw [h]
  rfl

theorem node_options (can : Val) (kw : Kwargs) (h1 : get? kw (lit "self") = none) (h2 : get? kw (lit "can_driver") = none) :
    node can kw = .ok (Node.mk can (given kw "node_id" .none) (orElse (given kw "node_status_interval" .none) (.num 1)) (effective kw "mode" (.num 1))
      (if truthy (given kw "node_info" .none) then given kw "node_info" .none else .none) (given kw "catch_handler_exceptions" (.num 1))
      (given kw "send_canfd" (.num 0))) := by
  have hb : bind nodeParams true [.obj 0, can] kw = .ok ((lit "self", .obj 0) :: (lit "can_driver", can) :: nodeRest.map (val kw),
      kw.filter fun p => !nodeRest.any fun q => q.1 == p.1) := by
    have hfill : fill kw nodeRest = .ok (nodeRest.map (val kw)) := by
      refine fill_ok _ _ ?_
      intro p hp hn
      have hall : ∀ p ∈ nodeRest, p.2 ≠ none := by decide
      exact absurd hn (hall p hp)
    simp only [bind]
    rw [if_neg (by simp [nodeParams])]
    have ht : ((nodeParams.take [Val.obj 0, can].length).map Prod.fst).any (fun n => has kw n) = false := by
      have : (nodeParams.take [Val.obj 0, can].length).map Prod.fst = [lit "self", lit "can_driver"] := rfl
      rw [this]
      simp [(has_iff _ _).2 h1, (has_iff _ _).2 h2]
    rw [if_neg (by rw [ht]; exact Bool.false_ne_true)]
    have hr : nodeParams.drop [Val.obj 0, can].length = nodeRest := rfl
    rw [hr, hfill]
    rfl
  simp only [node, hb, Bind.bind, Except.bind]
  rw [node_arg can kw "node_id" .none (by decide) (by decide) (by decide), node_arg can kw "node_status_interval" .none (by decide) (by decide) (by decide),
    node_arg can kw "mode" .none (by decide) (by decide) (by decide), node_arg can kw "node_info" .none (by decide) (by decide) (by decide),
    node_arg can kw "catch_handler_exceptions" (.num 1) (by decide) (by decide) (by decide), node_arg can kw "send_canfd" (.num 0) (by decide) (by decide) (by decide)]
  simp only [given]
  rw [ifNone_eff]

theorem one_bind (x : String) (v : Val) (kw : Kwargs) (h : get? kw (lit x) = none) :
    bind [(lit x, none)] true [v] kw = .ok ([(lit x, v)], kw) := by
  simp only [bind]
  simp [(has_iff _ _).2 h, fill, Except.map]

/-- The names that are taken: those of the parameters that the functions give by position. -/
def reserved : List String := ["can_device_name", "device_name", "self", "device", "can_driver"]

def Free (kw : Kwargs) : Prop := ∀ n ∈ reserved, get? kw (lit n) = none

theorem makeNode_eq (name : Str) (kw : Kwargs) (hf : Free kw) :
    makeNode name kw = (do let c ← slcan name kw; let n ← node (.obj 10) kw; .ok (c, n)) := by
  have b1 := one_bind "can_device_name" (.str name) kw (hf _ (by decide))
  have b2 := one_bind "device_name" (.str name) kw (hf _ (by decide))
  simp only [makeNode, b1, b2, Bind.bind, Except.bind]

/-- What counts as false in Python, among the values considered. -/
theorem truthy_false (v : Val) : truthy v = false ↔ v ∈ [.none, .num 0, .str []] := by
  cases v with
  | none => simp [truthy]
  | num q => simp [truthy]
  | str t => simp [truthy]
  | obj i => simp [truthy]

/-- The driver works with the options given. -/
def UsesDriver (name : Str) (kw : Kwargs) (c : Slcan) : Prop :=
  c.device = .str name ∧ c.baudrate = effective kw "baudrate" (.num 3000000) ∧ c.bitrate = effective kw "bitrate" (.num 1000000) ∧
  (∃ r, effective kw "max_adapter_clock_rate_error_ppm" (.num 200) = .num r ∧ c.rateError = r / 1000000) ∧
  .num c.fixedDelay = effective kw "fixed_rx_delay" (.num (2 / 10000)) ∧
  .num c.resync = effective kw "max_estimated_rx_delay_to_resync" (.num (1 / 10)) ∧
  (c.autoReopen = false ↔ given kw "auto_reopen" (.num 1) ∈ [.none, .num 0, .str []])

/-- The node works with the options given. -/
def UsesNode (kw : Kwargs) (n : Node) : Prop :=
  n.driver = .obj 10 ∧ n.nodeId = given kw "node_id" .none ∧ n.interval = effective kw "node_status_interval" (.num 1) ∧ n.mode = effective kw "mode" (.num 1) ∧
  n.nodeInfo = given kw "node_info" .none ∧ n.catchExceptions = given kw "catch_handler_exceptions" (.num 1) ∧ n.canfd = given kw "send_canfd" (.num 0)

/-- Values that make sense. -/
def Sensible (kw : Kwargs) : Prop :=
  (∃ q, effective kw "max_adapter_clock_rate_error_ppm" (.num 200) = .num q ∧ 0 ≤ q) ∧
  (∃ q, effective kw "fixed_rx_delay" (.num (2 / 10000)) = .num q ∧ 0 ≤ q) ∧
  (∃ q, effective kw "max_estimated_rx_delay_to_resync" (.num (1 / 10)) = .num q ∧ 0 < q) ∧
  (∃ q, effective kw "baudrate" (.num 3000000) = .num q ∧ 0 < q) ∧
  (∃ q, effective kw "node_status_interval" (.num 1) = .num q ∧ 0 ≤ q) ∧
  (given kw "node_info" .none = .none ∨ ∃ i, given kw "node_info" .none = .obj i)

/-- The full claim: all options that make sense take effect, and all others are ignored. -/
def C147_statement : Prop := ∀ (name : Str) (kw : Kwargs), Sensible kw → ∃ c n, makeNode name kw = .ok (c, n) ∧ UsesDriver name kw c ∧ UsesNode kw n

/-- `v or d` is the option if what was given is true. -/
theorem orElse_eff (kw : Kwargs) (n : String) (d : Val) (q : Rat) (h : effective kw n d = .num q) (hq : q ≠ 0) :
    orElse ((get? kw (lit n)).getD .none) d = .num q := by
  simp only [effective] at h
  cases hg : get? kw (lit n) with
  | none => rw [hg] at h; simpa [orElse, truthy] using h
  | some v =>
    rw [hg] at h
    simp only at h
    split at h
    · rename_i hv; rw [hv]; simpa [orElse, truthy] using h
    · rw [h]; simp [orElse, truthy, hq]

theorem sensible_empty : Sensible [] :=
  ⟨⟨200, rfl, by decide +kernel⟩, ⟨2 / 10000, rfl, by decide +kernel⟩, ⟨1 / 10, rfl, by decide +kernel⟩, ⟨3000000, rfl, by decide +kernel⟩, ⟨1, rfl, by decide +kernel⟩, .inl rfl⟩

/-- **C147**: the options take effect if the rate error and the interval are not zero and no option has the name of a parameter given by position. -/
theorem C147_partial (name : Str) (kw : Kwargs) (hs : Sensible kw) (hf : Free kw)
    (hr : effective kw "max_adapter_clock_rate_error_ppm" (.num 200) ≠ .num 0) (hi : effective kw "node_status_interval" (.num 1) ≠ .num 0) :
    ∃ c n, makeNode name kw = .ok (c, n) ∧ UsesDriver name kw c ∧ UsesNode kw n := by
  obtain ⟨⟨r, er, hr0⟩, ⟨d, ed, hd0⟩, ⟨s, es, hs0⟩, ⟨b, eb, hb0⟩, ⟨i, ei, hi0⟩, hinfo⟩ := hs
  have rne : r ≠ 0 := by rintro rfl; exact hr er
  have rpos : 0 < r := by
    rcases Rat.le_iff_lt_or_eq.1 hr0 with h | h
    · exact h
    · exact absurd h.symm rne
  have ine : i ≠ 0 := by rintro rfl; exact hi ei
  have sne : s ≠ 0 := by rintro rfl; exact absurd hs0 (Rat.lt_irrefl)
  have bne : b ≠ 0 := by rintro rfl; exact absurd hb0 (Rat.lt_irrefl)
  have qpos : 0 < r / 1000000 := (Rat.lt_div_iff (by decide)).2 (by simpa using rpos)
  have qne : ¬ r / 1000000 = 0 := fun e => by rw [e] at qpos; exact Rat.lt_irrefl qpos
  have qnn : ¬ r / 1000000 < 0 := Rat.not_lt.2 (Rat.le_of_lt qpos)
  have dnn : ¬ d < 0 := Rat.not_lt.2 hd0
  have snn : ¬ s ≤ 0 := Rat.not_le.2 hs0
  have hdel : orElse (.num d) (.num 0) = .num d := by
    simp only [orElse, truthy]
    by_cases h : d = 0
    · subst h; rfl
    · simp [h]
  have hres : orElse (.num s) (.num 1) = .num s := by simp [orElse, truthy, sne]
  have hest : estimator (r / 1000000) (.num d) (.num s) = .ok (r / 1000000, d, s) := by
    simp only [estimator, hdel, hres, number, if_neg qne, Bind.bind, Except.bind, if_neg qnn, if_neg dnn, if_neg snn]
  have hsl := slcan_options name kw (hf _ (by decide)) (hf _ (by decide)) (hf _ (by decide))
  rw [er, ed, orElse_eff kw _ _ s es sne, orElse_eff kw _ _ b eb bne] at hsl
  simp only [number, Bind.bind, Except.bind, hest, Except.mapError] at hsl
  have hnd := node_options (.obj 10) kw (hf _ (by decide)) (hf _ (by decide))
  have hint : orElse (given kw "node_status_interval" .none) (.num 1) = .num i := orElse_eff kw _ _ i ei ine
  rw [hint] at hnd
  rw [makeNode_eq name kw hf, hsl, hnd]
  refine ⟨_, _, rfl, ⟨rfl, eb.symm, rfl, ⟨r, er, rfl⟩, ed.symm, es.symm, truthy_false _⟩, rfl, rfl, ei.symm, rfl, ?_, rfl, rfl⟩
  rcases hinfo with h | ⟨j, h⟩ <;> simp [h, truthy]

/-- **C147** (a clock that is said to be exact): with a rate error of zero, the limit is 200 ppm. -/
theorem C147_exact_clock (name : Str) (kw : Kwargs) (hs : Sensible kw) (hf : Free kw)
    (hr : effective kw "max_adapter_clock_rate_error_ppm" (.num 200) = .num 0) :
    ∃ c n, makeNode name kw = .ok (c, n) ∧ c.rateError = 1 / 5000 := by
  obtain ⟨-, ⟨d, ed, hd0⟩, ⟨s, es, hs0⟩, ⟨b, eb, hb0⟩, -⟩ := hs
  have sne : s ≠ 0 := by rintro rfl; exact absurd hs0 (Rat.lt_irrefl)
  have bne : b ≠ 0 := by rintro rfl; exact absurd hb0 (Rat.lt_irrefl)
  have dnn : ¬ d < 0 := Rat.not_lt.2 hd0
  have snn : ¬ s ≤ 0 := Rat.not_le.2 hs0
  have hdel : orElse (.num d) (.num 0) = .num d := by
    simp only [orElse, truthy]
    by_cases h : d = 0
    · subst h; rfl
    · simp [h]
  have hres : orElse (.num s) (.num 1) = .num s := by simp [orElse, truthy, sne]
  have hq : ¬ (200 / 1000000 : Rat) < 0 := by decide +kernel
  have h0 : (0 / 1000000 : Rat) = 0 := by decide +kernel
  have hest : estimator (0 / 1000000) (.num d) (.num s) = .ok (200 / 1000000, d, s) := by
    simp only [estimator, hdel, hres, number, h0, if_true, Bind.bind, Except.bind, if_neg hq, if_neg dnn, if_neg snn]
  have hsl := slcan_options name kw (hf _ (by decide)) (hf _ (by decide)) (hf _ (by decide))
  rw [hr, ed, orElse_eff kw _ _ s es sne, orElse_eff kw _ _ b eb bne] at hsl
  simp only [number, Bind.bind, Except.bind, hest, Except.mapError] at hsl
  have hnd := node_options (.obj 10) kw (hf _ (by decide)) (hf _ (by decide))
  rw [makeNode_eq name kw hf, hsl, hnd]
  refine ⟨_, _, rfl, ?_⟩
  show (200 / 1000000 : Rat) = 1 / 5000
  decide +kernel

/-- **C147** (other options): what the other keyword arguments are makes no difference. -/
theorem C147_ignored (name : Str) (kw kw' : Kwargs) (hf : Free kw) (hf' : Free kw')
    (h : ∀ n ∈ ["bitrate", "baudrate", "max_adapter_clock_rate_error_ppm", "fixed_rx_delay", "max_estimated_rx_delay_to_resync", "auto_reopen", "node_id",
      "node_status_interval", "mode", "node_info", "catch_handler_exceptions", "send_canfd"], get? kw (lit n) = get? kw' (lit n)) :
    makeNode name kw = makeNode name kw' := by
  rw [makeNode_eq name kw hf, makeNode_eq name kw' hf', slcan_options name kw (hf _ (by decide)) (hf _ (by decide)) (hf _ (by decide)),
    slcan_options name kw' (hf' _ (by decide)) (hf' _ (by decide)) (hf' _ (by decide)), node_options _ kw (hf _ (by decide)) (hf _ (by decide)),
    node_options _ kw' (hf' _ (by decide)) (hf' _ (by decide))]
  have he : ∀ n ∈ ["bitrate", "max_adapter_clock_rate_error_ppm", "fixed_rx_delay", "mode"], ∀ d, effective kw n d = effective kw' n d := by
    intro n hn d
    have hall : ∀ n ∈ ["bitrate", "max_adapter_clock_rate_error_ppm", "fixed_rx_delay", "mode"], n ∈ ["bitrate", "baudrate",
      "max_adapter_clock_rate_error_ppm", "fixed_rx_delay", "max_estimated_rx_delay_to_resync", "auto_reopen", "node_id",
      "node_status_interval", "mode", "node_info", "catch_handler_exceptions", "send_canfd"] := by decide
    simp only [effective, h n (hall n hn)]
  have hg : ∀ n ∈ ["node_id", "node_status_interval", "node_info", "catch_handler_exceptions", "send_canfd"], ∀ d, given kw n d = given kw' n d := by
    intro n hn d
    have hall : ∀ n ∈ ["node_id", "node_status_interval", "node_info", "catch_handler_exceptions", "send_canfd"], n ∈ ["bitrate", "baudrate",
      "max_adapter_clock_rate_error_ppm", "fixed_rx_delay", "max_estimated_rx_delay_to_resync", "auto_reopen", "node_id",
      "node_status_interval", "mode", "node_info", "catch_handler_exceptions", "send_canfd"] := by decide
    simp only [given, h n (hall n hn)]
  rw [he "bitrate" (by decide), he "max_adapter_clock_rate_error_ppm" (by decide), he "fixed_rx_delay" (by decide), he "mode" (by decide),
    hg "node_id" (by decide), hg "node_status_interval" (by decide), hg "node_info" (by decide), hg "catch_handler_exceptions" (by decide),
    hg "send_canfd" (by decide), h "baudrate" (by decide), h "max_estimated_rx_delay_to_resync" (by decide), h "auto_reopen" (by decide)]

/-- **C147**, counterexample: a clock that is said to be exact is taken to be off by up to 200 ppm. -/
theorem C147_counterexample : ¬ C147_statement := by
  intro h
  have hs : Sensible [(lit "max_adapter_clock_rate_error_ppm", .num 0)] :=
    ⟨⟨0, rfl, by decide +kernel⟩, ⟨2 / 10000, rfl, by decide +kernel⟩, ⟨1 / 10, rfl, by decide +kernel⟩, ⟨3000000, rfl, by decide +kernel⟩, ⟨1, rfl, by decide +kernel⟩, .inl rfl⟩
  obtain ⟨c, n, e, ⟨_, _, _, ⟨r, er, hr⟩, _⟩, _⟩ := h (lit "/dev/ttyACM0") _ hs
  have e' : (makeNode (lit "/dev/ttyACM0") [(lit "max_adapter_clock_rate_error_ppm", .num 0)]).toOption.map (fun p => p.1.rateError) = some (200 / 1000000) := by
    decide +kernel
  rw [e] at e'
  have h0 : r = 0 := by
    have : effective [(lit "max_adapter_clock_rate_error_ppm", Val.num 0)] "max_adapter_clock_rate_error_ppm" (.num 200) = .num 0 := by decide +kernel
    rw [this] at er
    injection er with er
    exact er.symm
  subst h0
  simp only [Except.toOption, Option.map_some, Option.some.injEq] at e'
  rw [hr] at e'
  exact absurd e' (by decide +kernel)

/-- **C147**, counterexample: an interval of zero is replaced by the default. -/
theorem C147_interval_counterexample : (node (.obj 10) [(lit "node_status_interval", .num 0)]).toOption.map Node.interval = some (.num 1) := by decide +kernel

/-- **C147**, counterexample: keyword arguments with the names of positional parameters are not ignored. `device` even lets the constructor wait for a process that has
ended at once. -/
theorem C147_names_counterexample :
    makeNode (lit "/dev/ttyACM0") [(lit "device", .num 1)] = .error .driverError ∧ makeNode (lit "/dev/ttyACM0") [(lit "can_driver", .num 1)] = .error .typeError ∧
    makeNode (lit "/dev/ttyACM0") [(lit "device_name", .num 1)] = .error .typeError := by decide +kernel

/-- **C147** (MAVLink): the bus is the one before the number given, the other options are used as given. -/
theorem C147_mavcan (url : Str) (kw : Kwargs) (q : Rat) (h1 : get? kw (lit "self") = none) (h2 : get? kw (lit "url") = none)
    (hb : given kw "bus_number" (.num 1) = .num q) :
    mavcan url kw = .ok (Mavcan.mk (.str url) (q - 1) (given kw "mavlink_target_system" (.num 0)) (given kw "baudrate" (.num 115200))) := by
  have b1 : bind [(lit "self", none), (lit "url", none)] true [.obj 0, .str url] kw = .ok ([(lit "self", .obj 0), (lit "url", .str url)], kw) := by
    simp only [bind]
    simp [(has_iff _ _).2 h1, (has_iff _ _).2 h2, fill, Except.map]
  simp only [given] at hb ⊢
  simp only [mavcan, b1, Bind.bind, Except.bind, hb, number]

/-- **C147**, counterexample: the bus number 0, which `set_bus` refuses, selects the bus -1. -/
theorem C147_bus_counterexample : (mavcan (lit "udp:x") [(lit "bus_number", .num 0)]).toOption.map Mavcan.bus = some (-1) := by decide +kernel

/-- Some options, one of them unknown. -/
def sample : Kwargs := [(lit "node_id", .num 100), (lit "bitrate", .num 500000), (lit "colour", .str (lit "red")), (lit "mode", .num 0),
  (lit "baudrate", .none), (lit "fixed_rx_delay", .num 0), (lit "auto_reopen", .num 0)]

example : makeNode (lit "/dev/ttyACM0") sample = .ok
    (Slcan.mk (.str (lit "/dev/ttyACM0")) (.num 3000000) (.num 500000) (200 / 1000000) 0 (1 / 10) false,
     Node.mk (.obj 10) (.num 100) (.num 1) (.num 0) .none (.num 1) (.num 0)) := by decide +kernel

example : Sensible sample ∧ Free sample :=
  ⟨⟨⟨200, by decide +kernel, by decide +kernel⟩, ⟨0, by decide +kernel, by decide +kernel⟩, ⟨1 / 10, by decide +kernel, by decide +kernel⟩, ⟨3000000, by decide +kernel, by decide +kernel⟩,
    ⟨1, by decide +kernel, by decide +kernel⟩, .inl (by decide +kernel)⟩, by unfold Free; decide +kernel⟩

/-- A negative delay ends the new process; the constructor reports that it has waited in vain. -/
example : makeNode (lit "/dev/ttyACM0") [(lit "fixed_rx_delay", .num (-1))] = .error .driverError := by decide +kernel

end Options
end Dronecan
