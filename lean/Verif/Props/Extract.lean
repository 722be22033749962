import Verif.Model.Extract
import Verif.Props.LogReplay
import Verif.Props.TransferManager

/-!
# What the example that extracts GNSS data writes (C148)
-/

namespace Dronecan
namespace Extract
open Can LogFile

variable (env : Env)

/-! ## Specification -/

/-- The frames of a log that are DroneCAN frames: those with 29-bit identifiers. -/
def bus (fs : List CANFrame) : List Frame := (fs.filter (·.extended)).map fun f => { id := f.canId.toNat, bytes := f.data, canfd := f.canfd }

/-- The frame `f`, after the frames `hist`, completes a transfer which is not intact, or is of a type that is not known. -/
def Bad (hist : List Frame) (f : Frame) (e : Err) : Prop := ∃ p, Completed (ofKey f.key (hist ++ [f])) p ∧ fromFrames env.db p = .error e

/-- No transfer is like that. -/
def Intact (frames : List Frame) : Prop := ∀ hist f rest e, frames = hist ++ f :: rest → ¬ Bad env hist f e

/-- The data of the messages of the type wanted, in the order in which they are completed, and whatever else there is. -/
inductive Wanted : List Frame → List Byte → Prop
  | start : Wanted [] []
  | incomplete {hist : List Frame} {f : Frame} {out : List Byte} (h : Wanted hist out) (hn : ¬ ∃ p, Completed (ofKey f.key (hist ++ [f])) p) :
      Wanted (hist ++ [f]) out
  | bad {hist : List Frame} {f : Frame} {out : List Byte} {e : Err} (h : Wanted hist out) (hb : Bad env hist f e) : Wanted (hist ++ [f]) out
  | other {hist p : List Frame} {f : Frame} {out : List Byte} {tr : InTransfer} (h : Wanted hist out)
      (hp : Completed (ofKey f.key (hist ++ [f])) p) (ht : fromFrames env.db p = .ok tr)
      (hw : tr.header.service = true ∨ tr.header.dtid ≠ env.want) : Wanted (hist ++ [f]) out
  | message {hist p : List Frame} {f : Frame} {out : List Byte} {tr : InTransfer} (h : Wanted hist out)
      (hp : Completed (ofKey f.key (hist ++ [f])) p) (ht : fromFrames env.db p = .ok tr)
      (hw : tr.header.service = false ∧ tr.header.dtid = env.want) : Wanted (hist ++ [f]) (out ++ env.data tr.payload)

/-- The calls of `receive` in the rounds. -/
def callsOf : List Step → List (Rat × Option Rat)
  | [] => []
  | .round calls :: rest => calls ++ callsOf rest
  | .interrupt :: rest => callsOf rest

/-! ## The invariant -/

/-- What the manager has, and what has been written, after some frames. -/
structure Fed (seen : List CANFrame) (s : State) : Prop where
  tm : ∃ hist : List (Int × Frame), hist.map (·.2) = bus seen ∧ s.tm = (runManager [] hist).1
  out : Wanted env (bus seen) s.out

theorem bus_append (a b : List CANFrame) : bus (a ++ b) = bus a ++ bus b := by simp [bus]

theorem runManager_snoc (s : TmState) (h : List (Int × Frame)) (t : Int) (f : Frame) :
    (runManager s (h ++ [(t, f)])).1 = (receiveFrame (runManager s h).1 t f).1 := by
  induction h generalizing s with
  | nil => rfl
  | cons x h ih => exact ih _

/-- One frame. -/
theorem recvFrame_fed {seen : List CANFrame} {s : State} (h : Fed env seen s) (ho : s.over = none) (f : CANFrame) :
    Fed env (seen ++ [f]) (recvFrame env f s) ∧ (recvFrame env f s).reader = s.reader ∧
    ((recvFrame env f s).over = none ∧ (∀ g e, bus [f] = [g] → ¬ Bad env (bus seen) g e) ∨
      ∃ g e, (recvFrame env f s).over = some (.failed e) ∧ bus [f] = [g] ∧ Bad env (bus seen) g e) := by
  obtain ⟨⟨hist, h1, h2⟩, h3⟩ := h
  unfold recvFrame
  cases hx : f.extended with
  | false =>
    have e : bus [f] = [] := by simp [bus, hx]
    simp only [Bool.not_false, if_true]
    refine ⟨⟨⟨hist, ?_, h2⟩, ?_⟩, by trivial, .inl ⟨ho, ?_⟩⟩
    · rw [bus_append, e, List.append_nil]; exact h1
    · rw [bus_append, e, List.append_nil]; exact h3
    · rw [e]; intro g _ hg; cases hg
  | true =>
    have e : bus [f] = [frameOf f] := by simp [bus, hx, frameOf]
    have key := C21_reassembled_iff hist 0 (frameOf f)
    have hsn := runManager_snoc [] hist 0 (frameOf f)
    rw [← h2] at key hsn
    rw [h1] at key
    simp only [Bool.not_true, Bool.false_eq_true, if_false, bus_append, e]
    generalize hr : receiveFrame s.tm 0 (frameOf f) = r at *
    obtain ⟨tm, res⟩ := r
    have htm : ∃ h' : List (Int × Frame), h'.map (·.2) = bus seen ++ [frameOf f] ∧ tm = (runManager [] h').1 :=
      ⟨hist ++ [(0, frameOf f)], by rw [List.map_append, h1]; rfl, hsn.symm⟩
    cases res with
    | none =>
      have hn : ¬ ∃ p, Completed (ofKey (frameOf f).key (bus seen ++ [frameOf f])) p := fun ⟨p, hp⟩ => nomatch (key p).2 hp
      refine ⟨⟨by rw [bus_append, e]; exact htm, by rw [bus_append, e]; exact .incomplete h3 hn⟩, rfl, .inl ⟨ho, ?_⟩⟩
      rintro g e' hg ⟨p, hp, -⟩
      injection hg with hg; subst hg
      exact hn ⟨p, hp⟩
    | some p =>
      have hp := (key p).1 rfl
      simp only
      cases hf : fromFrames env.db p with
      | error e' =>
        have hb : Bad env (bus seen) (frameOf f) e' := ⟨p, hp, hf⟩
        exact ⟨⟨by rw [bus_append, e]; exact htm, by rw [bus_append, e]; exact .bad h3 hb⟩, rfl, .inr ⟨_, e', rfl, rfl, hb⟩⟩
      | ok tr =>
        have hnb : ∀ g e', [frameOf f] = [g] → ¬ Bad env (bus seen) g e' := by
          rintro g e' hg ⟨q, hq, hq'⟩
          injection hg with hg; subst hg
          have := (key q).2 hq
          injection this with this; subst this
          rw [hf] at hq'; cases hq'
        simp only [handle]
        by_cases hw : tr.header.service = false ∧ tr.header.dtid = env.want
        · simp only [if_pos hw]
          exact ⟨⟨by rw [bus_append, e]; exact htm, by rw [bus_append, e]; exact .message h3 hp hf hw⟩, by trivial, .inl ⟨ho, hnb⟩⟩
        · simp only [if_neg hw]
          have hw' : tr.header.service = true ∨ tr.header.dtid ≠ env.want := by
            cases hs : tr.header.service with
            | true => exact .inl rfl
            | false => exact .inr fun hd => hw ⟨hs, hd⟩
          exact ⟨⟨by rw [bus_append, e]; exact htm, by rw [bus_append, e]; exact .other h3 hp hf hw'⟩, by trivial, .inl ⟨ho, hnb⟩⟩

/-- What holds after the calls `calls` of `receive`; `none` are bad up to now, or the last one is. -/
structure Inv (r : Reader) (calls : List (Rat × Option Rat)) (s : State) : Prop where
  reader : s.reader = (receives calls r).2
  fed : Fed env (delivered (receives calls r).1) s
  good : s.over = none → Intact env (bus (delivered (receives calls r).1))
  failed : ∀ e, s.over = some (.failed e) → ∃ hist g, bus (delivered (receives calls r).1) = hist ++ [g] ∧ Bad env hist g e ∧ Intact env hist

theorem intact_snoc {hist : List Frame} {g : Frame} (h : Intact env hist) (hg : ∀ e, ¬ Bad env hist g e) : Intact env (hist ++ [g]) := by
  intro a f b e hab hb
  rcases List.eq_nil_or_concat b with rfl | ⟨b', x, rfl⟩
  · obtain ⟨rfl, hf⟩ := List.append_inj' hab rfl
    injection hf with hf; subst hf
    exact hg e hb
  · have : hist ++ [g] = (a ++ f :: b') ++ [x] := by simpa using hab
    obtain ⟨rfl, -⟩ := List.append_inj' this rfl
    exact h a f b' e rfl hb

theorem spin_inv {r : Reader} {fs : List CANFrame} (hr : Holds r fs) (hs : r.speedup ≠ 0) : ∀ (more calls : List (Rat × Option Rat)) (s : State),
    s.over = none → Inv env r calls s →
    ∃ used, Inv env r (calls ++ used) (spin env more s) ∧
      ((spin env more s).over = none ∧ used = more ∨ ∃ e, (spin env more s).over = some (.failed e)) := by
  intro more
  induction more with
  | nil => intro calls s ho h; exact ⟨[], by simpa [spin] using h, .inl ⟨ho, rfl⟩⟩
  | cons c more ih =>
    intro calls s ho h
    obtain ⟨h1, h2, h3, h4⟩ := h
    obtain ⟨-, rest, -, hh⟩ := receives_holds calls r fs hr hs
    have hsp := (receives_keeps calls r).2.2.1
    have happ : receives (calls ++ [c]) r = ((receives calls r).1 ++ [(receive c.1 c.2 s.reader).1], (receive c.1 c.2 s.reader).2) := by
      rw [receives_append, ← h1]; rfl
    simp only [spin]
    have hc := receive_holds c.1 c.2 s.reader rest (by rw [h1]; exact hh) (by rw [h1, hsp]; exact hs)
    generalize hg : receive c.1 c.2 s.reader = res at *
    obtain ⟨x, r'⟩ := res
    rcases hc with ⟨x', fs', -, e2, -⟩ | ⟨e2, -, -⟩
    · simp only at e2; subst e2
      simp only
      have hd : delivered (receives (calls ++ [c]) r).1 = delivered (receives calls r).1 ++ [x'.frame] := by
        rw [happ, delivered_append]; rfl
      obtain ⟨a1, a2, a3⟩ := recvFrame_fed env (s := { s with reader := r' }) ⟨h2.tm, h2.out⟩ ho x'.frame
      generalize recvFrame env x'.frame { s with reader := r' } = s' at *
      rcases a3 with ⟨a3, a4⟩ | ⟨g, e, a3, a4, a5⟩
      · rw [if_pos a3]
        have hinv : Inv env r (calls ++ [c]) s' := by
          refine ⟨by rw [a2, happ], by rw [hd]; exact a1, fun _ => ?_, (fun e he => by rw [a3] at he; cases he)⟩
          rw [hd, bus_append]
          cases hx : x'.frame.extended with
          | false =>
            have : bus [x'.frame] = [] := by simp [bus, hx]
            rw [this, List.append_nil]; exact h3 ho
          | true =>
            have : bus [x'.frame] = [frameOf x'.frame] := by simp [bus, hx, frameOf]
            rw [this] at a4 ⊢
            exact intact_snoc env (h3 ho) fun e => a4 _ e rfl
        obtain ⟨used, b1, b2⟩ := ih _ s' a3 hinv
        refine ⟨c :: used, by simpa using b1, ?_⟩
        rcases b2 with ⟨b2, rfl⟩ | b2
        · exact .inl ⟨b2, rfl⟩
        · exact .inr b2
      · rw [if_neg (by rw [a3]; simp)]
        refine ⟨[c], ⟨by rw [a2, happ], by rw [hd]; exact a1, (fun he => by rw [a3] at he; cases he), fun e' he => ?_⟩, .inr ⟨e, a3⟩⟩
        rw [a3] at he
        injection he with he; injection he with he; subst he
        exact ⟨_, g, by rw [hd, bus_append, a4], a5, h3 ho⟩
    · simp only at e2; subst e2
      simp only
      have hd : delivered (receives (calls ++ [c]) r).1 = delivered (receives calls r).1 := by
        rw [happ, delivered_append]; simp [delivered]
      have hinv : Inv env r (calls ++ [c]) { s with reader := r' } :=
        ⟨by rw [happ], by rw [hd]; exact ⟨h2.tm, h2.out⟩, (fun _ => by rw [hd]; exact h3 ho), (fun e he => by simp only at he; rw [ho] at he; cases he)⟩
      obtain ⟨used, b1, b2⟩ := ih _ { s with reader := r' } ho hinv
      refine ⟨c :: used, by simpa using b1, ?_⟩
      rcases b2 with ⟨b2, rfl⟩ | b2
      · exact .inl ⟨b2, rfl⟩
      · exact .inr b2

/-- What holds after any steps. -/
theorem run_inv {r : Reader} {fs : List CANFrame} (hr : Holds r fs) (hs : r.speedup ≠ 0) (he : r.eof = false) (steps : List Step) :
    ∃ calls, Inv env r calls (run env r steps) ∧
      ((run env r steps).over = some .finished → endOfStream (run env r steps).reader = true) ∧
      ((run env r steps).over = some .interrupted → .interrupt ∈ steps) ∧
      ((run env r steps).over = none → calls = callsOf steps ∧ endOfStream (run env r steps).reader = false) := by
  suffices H : ∀ (steps : List Step) (s : State) (calls done : List (Rat × Option Rat)), Inv env r calls s →
      (s.over = some .finished → endOfStream s.reader = true) → (s.over = none → calls = done ∧ endOfStream s.reader = false) →
      ∃ calls, Inv env r calls (steps.foldl (step env) s) ∧
        ((steps.foldl (step env) s).over = some .finished → endOfStream (steps.foldl (step env) s).reader = true) ∧
        ((steps.foldl (step env) s).over = some .interrupted → s.over = some .interrupted ∨ .interrupt ∈ steps) ∧
        ((steps.foldl (step env) s).over = none → calls = done ++ callsOf steps ∧ endOfStream (steps.foldl (step env) s).reader = false) by
    obtain ⟨calls, a, b, c, d⟩ := H steps { reader := r } [] []
      ⟨rfl, ⟨⟨[], rfl, rfl⟩, .start⟩, (fun _ => by rintro a f b e hab; simp [bus, delivered, receives] at hab), (fun e h => nomatch h)⟩
      (fun h => nomatch h) (fun _ => ⟨rfl, he⟩)
    exact ⟨calls, a, b, fun h => (c h).elim (fun h => nomatch h) id, by simpa [run] using d⟩
  intro steps
  induction steps with
  | nil => intro s calls done h1 h2 h3; exact ⟨calls, h1, h2, .inl, by simpa [callsOf] using h3⟩
  | cons t steps ih =>
    intro s calls done h1 h2 h3
    simp only [List.foldl_cons]
    by_cases ho : s.over = none
    · obtain ⟨rfl, h4⟩ := h3 ho
      cases t with
      | interrupt =>
        have e : step env s .interrupt = { s with over := some .interrupted } := by simp [step, ho]
        rw [e]
        obtain ⟨calls', a, b, c, d⟩ := ih { s with over := some .interrupted } calls calls
          ⟨h1.reader, ⟨h1.fed.tm, h1.fed.out⟩, (fun h => nomatch h), (fun e h => nomatch h)⟩ (fun h => nomatch h) (fun h => nomatch h)
        refine ⟨calls', a, b, fun _ => .inr List.mem_cons_self, fun h => ?_⟩
        obtain ⟨d1, d2⟩ := d h
        exact ⟨by simpa [callsOf] using d1, d2⟩
      | round more =>
        obtain ⟨used, b1, b2⟩ := spin_inv env hr hs more calls s ho h1
        have e : step env s (.round more) = if (spin env more s).over = none ∧ endOfStream (spin env more s).reader = true then
            { spin env more s with over := some .finished } else spin env more s := by simp [step, ho]
        rw [e]
        generalize spin env more s = s' at *
        split
        · rename_i hc
          obtain ⟨calls', a, b, c, d⟩ := ih { s' with over := some .finished } (calls ++ used) (calls ++ more)
            ⟨b1.reader, ⟨b1.fed.tm, b1.fed.out⟩, (fun h => nomatch h), (fun e h => nomatch h)⟩ (fun _ => hc.2) (fun h => nomatch h)
          refine ⟨calls', a, b, fun h => (c h).elim (fun h => nomatch h) fun h => .inr (List.mem_cons_of_mem _ h), fun h => ?_⟩
          obtain ⟨d1, d2⟩ := d h
          exact ⟨by simpa [callsOf] using d1, d2⟩
        · rename_i hc
          have n1 : s'.over ≠ some .finished ∧ s'.over ≠ some .interrupted := by
            rcases b2 with ⟨b2, -⟩ | ⟨e, b2⟩ <;> rw [b2] <;> simp
          have n2 : s'.over = none → calls ++ used = calls ++ more ∧ endOfStream s'.reader = false := by
            intro h
            rcases b2 with ⟨-, rfl⟩ | ⟨e, b2⟩
            · refine ⟨rfl, ?_⟩
              cases hx : endOfStream s'.reader with
              | false => rfl
              | true => exact absurd ⟨h, hx⟩ hc
            · rw [b2] at h; cases h
          obtain ⟨calls', a, b, c, d⟩ := ih s' (calls ++ used) (calls ++ more) b1 (fun h => absurd h n1.1) n2
          refine ⟨calls', a, b, fun h => (c h).elim (fun h => absurd h n1.2) fun h => .inr (List.mem_cons_of_mem _ h), fun h => ?_⟩
          obtain ⟨d1, d2⟩ := d h
          exact ⟨by simpa [callsOf] using d1, d2⟩
    · have e : step env s t = s := by simp [step, ho]
      rw [e]
      obtain ⟨calls', a, b, c, d⟩ := ih s calls (done ++ callsOf [t]) h1 h2 (fun h => absurd h ho)
      refine ⟨calls', a, b, fun h => (c h).elim .inl fun h => .inr (List.mem_cons_of_mem _ h), fun h => ?_⟩
      obtain ⟨d1, d2⟩ := d h
      refine ⟨?_, d2⟩
      rw [d1]
      cases t <;> simp [callsOf]

/-! ## Theorems -/

/-- The data wanted is determined by the frames. -/
theorem C148_unique {frames : List Frame} {a b : List Byte} (ha : Wanted env frames a) (hb : Wanted env frames b) : a = b := by
  have uniq : ∀ (hist : List Frame) (f : Frame) (p q : List Frame), Completed (ofKey f.key (hist ++ [f])) p → Completed (ofKey f.key (hist ++ [f])) q → p = q := by
    intro hist f p q hp hq
    have hm : (hist.map fun f => ((0 : Int), f)).map (·.2) = hist := by simp [List.map_map, Function.comp_def]
    have kp := (C21_reassembled_iff (hist.map fun f => ((0 : Int), f)) 0 f p).2 (by rw [hm]; exact hp)
    have kq := (C21_reassembled_iff (hist.map fun f => ((0 : Int), f)) 0 f q).2 (by rw [hm]; exact hq)
    rw [kp] at kq
    exact Option.some.inj kq
  induction ha generalizing b with
  | start =>
    generalize hx : ([] : List Frame) = l at hb
    cases hb with
    | start => rfl
    | _ => simp at hx
  | @incomplete hist f out h hn ih =>
    generalize hx : hist ++ [f] = l at hb
    cases hb with
    | start => simp at hx
    | incomplete h' hn' => obtain ⟨rfl, hf⟩ := List.append_inj' hx rfl; exact ih h'
    | bad h' hb' => obtain ⟨rfl, hf⟩ := List.append_inj' hx rfl; exact ih h'
    | other h' hp' ht' hw' => obtain ⟨rfl, hf⟩ := List.append_inj' hx rfl; exact ih h'
    | message h' hp' ht' hw' =>
      obtain ⟨rfl, hf⟩ := List.append_inj' hx rfl
      injection hf with hf; subst hf
      exact absurd ⟨_, hp'⟩ hn
  | @bad hist f out e h hbad ih =>
    generalize hx : hist ++ [f] = l at hb
    cases hb with
    | start => simp at hx
    | incomplete h' hn' => obtain ⟨rfl, hf⟩ := List.append_inj' hx rfl; exact ih h'
    | bad h' hb' => obtain ⟨rfl, hf⟩ := List.append_inj' hx rfl; exact ih h'
    | other h' hp' ht' hw' => obtain ⟨rfl, hf⟩ := List.append_inj' hx rfl; exact ih h'
    | message h' hp' ht' hw' =>
      obtain ⟨rfl, hf⟩ := List.append_inj' hx rfl
      injection hf with hf; subst hf
      obtain ⟨p, hp, he⟩ := hbad
      rw [uniq _ _ _ _ hp hp', ht'] at he
      cases he
  | @other hist p f out tr h hp ht hw ih =>
    generalize hx : hist ++ [f] = l at hb
    cases hb with
    | start => simp at hx
    | incomplete h' hn' => obtain ⟨rfl, hf⟩ := List.append_inj' hx rfl; exact ih h'
    | bad h' hb' => obtain ⟨rfl, hf⟩ := List.append_inj' hx rfl; exact ih h'
    | other h' hp' ht' hw' => obtain ⟨rfl, hf⟩ := List.append_inj' hx rfl; exact ih h'
    | message h' hp' ht' hw' =>
      obtain ⟨rfl, hf⟩ := List.append_inj' hx rfl
      injection hf with hf; subst hf
      rw [uniq _ _ _ _ hp' hp, ht] at ht'
      injection ht' with ht'; subst ht'
      rcases hw with hw | hw
      · rw [hw] at hw'; cases hw'.1
      · exact absurd hw'.2 hw
  | @message hist p f out tr h hp ht hw ih =>
    generalize hx : hist ++ [f] = l at hb
    cases hb with
    | start => simp at hx
    | incomplete h' hn' =>
      obtain ⟨rfl, hf⟩ := List.append_inj' hx rfl
      injection hf with hf; subst hf
      exact absurd ⟨_, hp⟩ hn'
    | bad h' hb' =>
      obtain ⟨rfl, hf⟩ := List.append_inj' hx rfl
      injection hf with hf; subst hf
      obtain ⟨q, hq, he⟩ := hb'
      rw [uniq _ _ _ _ hq hp, ht] at he
      cases he
    | other h' hp' ht' hw' =>
      obtain ⟨rfl, hf⟩ := List.append_inj' hx rfl
      injection hf with hf; subst hf
      rw [uniq _ _ _ _ hp' hp, ht] at ht'
      injection ht' with ht'; subst ht'
      rcases hw' with hw' | hw'
      · rw [hw'] at hw; cases hw.1
      · exact absurd hw.2 hw'
    | message h' hp' ht' hw' =>
      obtain ⟨rfl, hf⟩ := List.append_inj' hx rfl
      injection hf with hf; subst hf
      rw [uniq _ _ _ _ hp' hp, ht] at ht'
      injection ht' with ht'; subst ht'
      rw [ih h']

theorem opened (content : List Byte) (fs : List CANFrame) (hc : Consists fs content) (now : Rat) (r : Reader) (h : openLog content (-1) now = .ok r) :
    Holds r fs ∧ r.speedup = -1 ∧ r.eof = false := by
  obtain ⟨o1, o2, o3, o4, o5⟩ := openLog_state content (-1) now r h
  exact ⟨holds_open content (-1) now r h r.start fs hc, o5, o4⟩

/-- Whatever is in the log, and whenever the program is looked at or ends: the output is the data of the messages in the first part of the log. If
it ends at the end of the log then this is all of it; if it ends with an exception, then because of the last frame read, and then there was no bad transfer before. -/
theorem C148_prefix (content : List Byte) (fs : List CANFrame) (hc : Consists fs content) (now : Rat) (r : Reader)
    (h : openLog content (-1) now = .ok r) (steps : List Step) :
    ∃ seen rest, fs = seen ++ rest ∧ Wanted env (bus seen) (run env r steps).out ∧
      ((run env r steps).over = some .finished → rest = []) ∧
      ∀ e, (run env r steps).over = some (.failed e) → ∃ hist g, bus seen = hist ++ [g] ∧ Bad env hist g e ∧ Intact env hist := by
  obtain ⟨hh, hsp, heof⟩ := opened content fs hc now r h
  have hs : r.speedup ≠ 0 := by rw [hsp]; decide
  obtain ⟨calls, a, b, -, -⟩ := run_inv env hh hs heof steps
  obtain ⟨-, rest, h1, h2⟩ := receives_holds calls r fs hh hs
  refine ⟨_, rest, h1, a.fed.out, fun ho => ?_, a.failed⟩
  have := b ho
  rw [a.reader] at this
  exact (h2.eof this).2

/-- C148 in full: when the program ends by itself, the output is the data of all the messages of the type in the log. -/
def C148_statement : Prop :=
  ∀ (env : Env) (content : List Byte) (fs : List CANFrame) (now : Rat) (r : Reader) (steps : List Step), Consists fs content →
    openLog content (-1) now = .ok r → (run env r steps).over ≠ none → .interrupt ∉ steps → Wanted env (bus fs) (run env r steps).out

/-- It is true if all the transfers in the log are intact and of known types. The program then does end so, as soon as `receive` was called twice more
than there are frames. (Missing: logs with other transfers, `C148_counterexample`.) -/
theorem C148_partial (content : List Byte) (fs : List CANFrame) (hc : Consists fs content) (hi : Intact env (bus fs)) (now : Rat) (r : Reader)
    (h : openLog content (-1) now = .ok r) (steps : List Step) (hn : .interrupt ∉ steps) :
    ((run env r steps).over ≠ none → (run env r steps).over = some .finished ∧ Wanted env (bus fs) (run env r steps).out) ∧
    (fs.length + 2 ≤ (callsOf steps).length → (run env r steps).over = some .finished) := by
  obtain ⟨hh, hsp, heof⟩ := opened content fs hc now r h
  have hs : r.speedup ≠ 0 := by rw [hsp]; decide
  obtain ⟨calls, a, b, c, d⟩ := run_inv env hh hs heof steps
  obtain ⟨-, rest, h1, h2⟩ := receives_holds calls r fs hh hs
  have fin : (run env r steps).over ≠ none → (run env r steps).over = some .finished := by
    intro ho
    cases hx : (run env r steps).over with
    | none => exact absurd hx ho
    | some x =>
      cases x with
      | finished => rfl
      | interrupted => exact absurd (c hx) hn
      | failed e =>
        obtain ⟨hist, g, g1, g2, -⟩ := a.failed e hx
        refine absurd g2 (hi hist g (bus rest) e ?_)
        rw [h1, bus_append, g1]; simp
  refine ⟨fun ho => ⟨fin ho, ?_⟩, fun hl => fin fun ho => ?_⟩
  · have := b (fin ho)
    rw [a.reader] at this
    have hrest := (h2.eof this).2
    rw [hrest, List.append_nil] at h1
    rw [h1]
    exact a.fed.out
  · obtain ⟨rfl, d2⟩ := d ho
    have := (C118_unpaced content now r h fs hc r.start (callsOf steps)).2 hl
    rw [show setStart r.start r = r from rfl, ← a.reader, d2] at this
    cases this

/-! ## Examples -/

/-- A message type with a field `uint8[<=200] data`. -/
def sampleType : DataType := { dtid := 1000, baseCrc := 0x1234#16, msg := .comp false [.arr (.prim ⟨.unsigned, 8, true⟩) true 200] }

def sampleEnv : Env where
  db := fun n service => if n = 1000 ∧ service = false then some sampleType else none
  want := 1000
  data := fun v => match v with
    | .comp _ [.arr items] => items.flatMap fun i => match i with
      | .prim bits => bytesFromBits bits
      | _ => []
    | _ => []

def strange : CANFrame := ⟨0x10000705, [1, 0xC0], true, false⟩
def useful : CANFrame := ⟨0x1003E805, [0x2A, 0x2B, 0xC0], true, false⟩

def usefulRecord : List Byte := [0x34, 0x29, 0, 0, 0, 0, 0, 0, 0, 0, 203, 142, 3, 0, 0, 0, 5, 0xE8, 3, 0x90, 0x2A, 0x2B, 0xC0]
def strangeRecord : List Byte := [0x34, 0x29, 0, 0, 0, 0, 0, 0, 0, 0, 114, 247, 2, 0, 0, 0, 5, 7, 0, 0x90, 1, 0xC0]

theorem useful_record : IsRecord usefulRecord useful :=
  ⟨[0x34, 0x29], [0, 0, 0, 0, 0, 0, 0, 0], [203, 142], [3, 0], [0, 0], [5, 0xE8, 3, 0x90], by decide +kernel⟩

theorem strange_record : IsRecord strangeRecord strange :=
  ⟨[0x34, 0x29], [0, 0, 0, 0, 0, 0, 0, 0], [114, 247], [2, 0], [0, 0], [5, 7, 0, 0x90], by decide +kernel⟩

/-- What happens to a log, by computation. -/
def outcome (content : List Byte) (steps : List Step) : Option (Option Ending × List Byte) :=
  match openLog content (-1) 0 with
  | .error _ => none
  | .ok r => some ((run sampleEnv r steps).over, (run sampleEnv r steps).out)

theorem outcome_some {content : List Byte} {steps : List Step} {x : Option Ending} {y : List Byte} (h : outcome content steps = some (x, y)) :
    ∃ r, openLog content (-1) 0 = .ok r ∧ (run sampleEnv r steps).over = x ∧ (run sampleEnv r steps).out = y := by
  unfold outcome at h
  cases ho : openLog content (-1) 0 with
  | error e => rw [ho] at h; cases h
  | ok r =>
    rw [ho] at h
    simp only [Option.some.injEq, Prod.mk.injEq] at h
    exact ⟨r, rfl, h.1, h.2⟩

/-- A single frame is a transfer. -/
theorem single (hist : List Frame) (f : Frame) (h1 : f.sot = true) (h2 : f.eot = true) : Completed (ofKey f.key (hist ++ [f])) [f] := by
  refine ⟨⟨⟨ofKey f.key hist, by simp [ofKey]⟩, f, [], rfl, h1, by simp⟩, [], f, rfl, h2, by simp⟩

theorem useful_message (hist : List Frame) (out : List Byte) (h : Wanted sampleEnv hist out) : Wanted sampleEnv (hist ++ [frameOf useful]) (out ++ [0x2A, 0x2B]) := by
  cases ht : fromFrames sampleEnv.db [frameOf useful] with
  | error e =>
    have : (fromFrames sampleEnv.db [frameOf useful]).toOption.isSome = true := by decide +kernel
    rw [ht] at this; cases this
  | ok tr =>
    have hw : ((fromFrames sampleEnv.db [frameOf useful]).toOption.map fun tr => (tr.header.service, tr.header.dtid, sampleEnv.data tr.payload)) =
        some (false, 1000, [0x2A, 0x2B]) := by decide +kernel
    rw [ht] at hw
    simp only [Except.toOption, Option.map_some, Option.some.injEq, Prod.mk.injEq] at hw
    rw [← hw.2.2]
    exact .message h (single hist _ (by decide) (by decide)) ht ⟨hw.1, hw.2.1⟩

/-- A message of a type that the program does not know ends it; the message after it is lost. -/
theorem C148_counterexample : ¬ C148_statement := by
  intro hst
  obtain ⟨r, h1, h2, h3⟩ := outcome_some (content := strangeRecord ++ (usefulRecord ++ [])) (steps := [.round [(0, none), (0, none), (0, none)]])
    (x := some (.failed .transferError)) (y := []) (by decide +kernel)
  have h := hst sampleEnv _ _ 0 r [.round [(0, none), (0, none), (0, none)]] (.record strange_record (.record useful_record (.done [] (by decide)))) h1
    (by rw [h2]; simp) (by simp)
  rw [h3] at h
  have hs : Wanted sampleEnv ([] ++ [frameOf strange]) [] := by
    refine .bad (e := .transferError) .start ⟨_, single [] _ (by decide) (by decide), ?_⟩
    have : (match fromFrames sampleEnv.db [frameOf strange] with
      | .error e => decide (e = .transferError)
      | .ok _ => false) = true := by decide +kernel
    cases ht : fromFrames sampleEnv.db [frameOf strange] with
    | error e => rw [ht] at this; simp only [decide_eq_true_eq] at this; rw [this]
    | ok tr => rw [ht] at this; cases this
  have := C148_unique sampleEnv h (useful_message _ _ hs)
  cases this

/-- A log with two messages, and an incomplete header. -/
example : outcome (usefulRecord ++ (usefulRecord ++ [1, 2])) [.round [(0, none)], .round [(0, none), (0, none)], .round [(0, none)]] =
    some (some .finished, [0x2A, 0x2B, 0x2A, 0x2B]) ∧ Intact sampleEnv (bus [useful]) := by
  refine ⟨by decide +kernel, ?_⟩
  have hb : bus [useful] = [frameOf useful] := rfl
  rw [hb]
  refine intact_snoc sampleEnv (hist := []) (by intro a f b e h; simp at h) ?_
  rintro e ⟨p, hp, he⟩
  have hm := (C21_reassembled_iff [] 0 (frameOf useful) p).2 hp
  have hx : (receiveFrame (runManager [] []).1 0 (frameOf useful)).2 = some [frameOf useful] := by decide +kernel
  have : p = [frameOf useful] := by rw [hx] at hm; exact (Option.some.inj hm).symm
  subst this
  have : (fromFrames sampleEnv.db [frameOf useful]).toOption.isSome = true := by decide +kernel
  rw [he] at this; cases this

end Extract
end Dronecan
