import Verif.Props.EndToEnd
import Verif.Props.Bridge
import Verif.Props.LogNode

/-!
# From node to node, across the bridge (C155)

A transfer that a port of the bridge receives is received by the nodes on the buses of the other ports. The theorems of the node (C91, C115) and of the
bridge (C138) are put together.
-/

namespace Dronecan
namespace EndToEnd
open Can Node PyM

/-! ## Specification -/

/-- What the bridge has sent to port `k`, each frame with the port that it comes from. -/
def sentTo (k : Nat) (tr : List Bridge.Ev) : List (Nat × CANFrame) := tr.filterMap fun
  | .sent j l f => if l = k then some (j, f) else none
  | _ => none

/-- The frames of the bridge among those on a bus: each is from the bridge (`some j`: it comes from port `j`) or from a node there. -/
def ofBridge (bus : List (Option Nat × CANFrame)) : List (Nat × CANFrame) := bus.filterMap fun x => x.1.map fun j => (j, x.2)

/-- The bus of port `k`: the bridge's frames are those that it has sent to the port, in order. -/
def OnBus (k : Nat) (tr : List Bridge.Ev) (bus : List (Option Nat × CANFrame)) : Prop := ofBridge bus = sentTo k tr

/-! ## Lists -/

/-- A transfer's frames are still there if some others are left out. -/
theorem mixed_filter {k : Frame} {frames : List Frame} {heard : List CANFrame} (h : Mixed Plain some k frames heard) (p : CANFrame → Bool)
    (hp : ∀ f ∈ frames, p (sentAs f) = true) : Mixed Plain some k frames (heard.filter p) := by
  induction h with
  | @last f a h =>
    have : p a = true := by rw [h]; exact hp f List.mem_cons_self
    rw [List.filter_cons_of_pos this]
    exact .last h
  | @own f a fs as h hs ih =>
    have : p a = true := by rw [h]; exact hp f List.mem_cons_self
    rw [List.filter_cons_of_pos this]
    exact .own h (ih fun g hg => hp g (List.mem_cons_of_mem _ hg))
  | @other a fs as h hs ih =>
    by_cases hpa : p a = true
    · rw [List.filter_cons_of_pos hpa]
      exact .other h (ih hp)
    · rw [List.filter_cons_of_neg hpa]
      exact ih hp

/-- The frames on a bus that come from port `i`. -/
def ofPort (i : Nat) (bus : List (Option Nat × CANFrame)) : List CANFrame := bus.filterMap fun x => if x.1 = some i then some x.2 else none

/-- A transfer's frames are still there if other frames come between them. -/
theorem mixed_merge {k : Frame} {i : Nat} (bus : List (Option Nat × CANFrame)) :
    ∀ (frames : List Frame) (heard later : List CANFrame), Mixed Plain some k frames heard → ofPort i bus = heard ++ later →
      (∀ x ∈ bus, x.1 ≠ some i → ¬ SameKey k x.2) →
      ∃ mid new, bus = mid ++ new ∧ ofPort i new = later ∧ Mixed Plain some k frames (mid.map (·.2)) := by
  induction bus with
  | nil =>
    intro frames heard later hm hb
    exact absurd hb (by cases hm <;> simp [ofPort])
  | cons x bus ih =>
    intro frames heard later hm hb ho
    have ho' : ∀ y ∈ bus, y.1 ≠ some i → ¬ SameKey k y.2 := fun y hy => ho y (List.mem_cons_of_mem _ hy)
    by_cases hx : x.1 = some i
    · have e : ofPort i (x :: bus) = x.2 :: ofPort i bus := by simp [ofPort, hx]
      rw [e] at hb
      cases hm with
      | @last f a h =>
        simp only [List.singleton_append, List.cons.injEq] at hb
        exact ⟨[x], bus, rfl, hb.2, .last (by show Plain f x.2; rw [hb.1]; exact h)⟩
      | @own f a fs as h hs =>
        simp only [List.cons_append, List.cons.injEq] at hb
        obtain ⟨mid, new, h1, h2, h3⟩ := ih fs as later hs hb.2 ho'
        exact ⟨x :: mid, new, by rw [h1]; rfl, h2, .own (by show Plain f x.2; rw [hb.1]; exact h) h3⟩
      | @other a fs as h hs =>
        simp only [List.cons_append, List.cons.injEq] at hb
        obtain ⟨mid, new, h1, h2, h3⟩ := ih frames as later hs hb.2 ho'
        exact ⟨x :: mid, new, by rw [h1]; rfl, h2, .other (by show ∀ g, some x.2 = some g → ¬ SameKey k g; rw [hb.1]; exact h) h3⟩
    · have e : ofPort i (x :: bus) = ofPort i bus := by simp [ofPort, hx]
      rw [e] at hb
      obtain ⟨mid, new, h1, h2, h3⟩ := ih frames heard later hm hb ho'
      refine ⟨x :: mid, new, by rw [h1]; rfl, h2, .other ?_ h3⟩
      intro g hg
      cases hg
      exact ho x List.mem_cons_self hx

/-- What comes before can be split off. -/
theorem ofPort_split (i : Nat) (bus : List (Option Nat × CANFrame)) : ∀ (a b : List CANFrame), ofPort i bus = a ++ b →
    ∃ old rest, bus = old ++ rest ∧ ofPort i old = a ∧ ofPort i rest = b := by
  induction bus with
  | nil =>
    intro a b h
    obtain ⟨rfl, rfl⟩ : a = [] ∧ b = [] := by simpa [ofPort] using h
    exact ⟨[], [], rfl, rfl, rfl⟩
  | cons x bus ih =>
    intro a b h
    by_cases hx : x.1 = some i
    · have e : ∀ l, ofPort i (x :: l) = x.2 :: ofPort i l := by intro l; simp [ofPort, hx]
      cases a with
      | nil => exact ⟨[], x :: bus, rfl, rfl, h⟩
      | cons y a =>
        rw [e] at h
        simp only [List.cons_append, List.cons.injEq] at h
        obtain ⟨old, rest, h1, h2, h3⟩ := ih a b h.2
        exact ⟨x :: old, rest, by rw [h1]; rfl, by rw [e, h2, h.1], h3⟩
    · have e : ∀ l, ofPort i (x :: l) = ofPort i l := by intro l; simp [ofPort, hx]
      rw [e] at h
      obtain ⟨old, rest, h1, h2, h3⟩ := ih a b h
      exact ⟨x :: old, rest, by rw [h1]; rfl, by rw [e, h2], h3⟩

/-- Without refusals, all that is given is sent. -/
theorem given_sent (i k : Nat) (tr : List Bridge.Ev) (hn : ∀ f e, .refused i k f e ∉ tr) :
    Bridge.given i k tr = (sentTo k tr).filterMap fun x => if x.1 = i then some x.2 else none := by
  induction tr with
  | nil => rfl
  | cons ev tr ih =>
    have ih := ih fun f e hm => hn f e (List.mem_cons_of_mem _ hm)
    simp only [Bridge.given, sentTo] at ih ⊢
    cases ev with
    | received j f => simpa using ih
    | died j => simpa using ih
    | sent j l f =>
      by_cases hl : l = k
      · by_cases hj : j = i
        · simp [hl, hj, ih]
        · simp [hl, hj, ih]
      · simp [hl, ih]
    | refused j l f e =>
      have : ¬ (j = i ∧ l = k) := by
        rintro ⟨rfl, rfl⟩
        exact hn f e List.mem_cons_self
      simp [this, ih]

theorem ofPort_bridge (i : Nat) (bus : List (Option Nat × CANFrame)) :
    ofPort i bus = (ofBridge bus).filterMap fun x => if x.1 = i then some x.2 else none := by
  simp only [ofPort, ofBridge, List.filterMap_filterMap]
  refine congrArg (fun g => List.filterMap g bus) (funext fun x => ?_)
  obtain ⟨o, f⟩ := x
  cases o with
  | none => rfl
  | some j => simp

/-! ## The theorems -/

/-- **C155**: port `i` of the bridge has received the frames of a transfer, in order, among others. The bridge is to forward frames of the sender, and no
call of `send_frame` of port `k` for port `i` has failed. On the bus of port `k` no frame but those from port `i` has the transfer's identifier and
transfer ID. Then there is a part of the traffic there such that every node that reads it receives the transfer. -/
theorem C155_crosses {dt : DataType} {service fd : Bool} {frames : List Frame} {tr : Option Int → InTransfer}
    (h : OnAir dt service fd frames tr) (key : Frame) (hkey : key ∈ frames) (cfg : Bridge.Config) (steps : List Bridge.Step) (i k : Nat)
    (hk : k < cfg.ports) (hik : i ≠ k) (hw : ∀ f ∈ frames, Bridge.Wanted cfg (sentAs f)) (earlier heard later : List CANFrame)
    (hr : Bridge.receivedBy i (Bridge.run cfg steps).trace = earlier ++ heard ++ later) (hm : Mixed Plain some key frames heard)
    (hn : ∀ f e, .refused i k f e ∉ (Bridge.run cfg steps).trace) (hidle : ((Bridge.run cfg steps).thread i).work = none)
    (bus : List (Option Nat × CANFrame)) (hb : OnBus k (Bridge.run cfg steps).trace bus)
    (ho : ∀ x ∈ bus, x.1 ≠ some i → ¬ SameKey key x.2) :
    ∃ old mid new, bus = old ++ mid ++ new ∧ ofPort i old = earlier.filter (Bridge.forwards cfg) ∧
      ofPort i new = later.filter (Bridge.forwards cfg) ∧ Received dt service frames tr (mid.map (·.2)) := by
  obtain ⟨last, -, h2, h3⟩ := Bridge.C138_order cfg steps i k hk hik
  rw [h3 hidle, List.append_nil, given_sent i k _ hn, ← hb, ← ofPort_bridge, hr, List.filter_append, List.filter_append, List.append_assoc] at h2
  obtain ⟨old, rest, rfl, s2, s3⟩ := ofPort_split i bus _ _ h2.symm
  obtain ⟨mid, new, rfl, m2, m3⟩ := mixed_merge rest frames _ _
    (mixed_filter hm (Bridge.forwards cfg) fun f hf => (Bridge.forwards_iff cfg _).2 (hw f hf)) s3
    (fun x hx => ho x (List.mem_append_right _ hx))
  exact ⟨old, mid, new, by rw [List.append_assoc], s2, m2, C115_frames h key hkey _ m3⟩

/-- With `--filter-nodeid`, frames of other sources do not cross. -/
theorem C155_filter (cfg : Bridge.Config) (steps : List Bridge.Step) (i k : Nat) (f : CANFrame) (hf : ¬ Bridge.Wanted cfg f)
    (bus : List (Option Nat × CANFrame)) (hb : OnBus k (Bridge.run cfg steps).trace bus) : (some i, f) ∉ bus := by
  intro hm
  have h1 : (i, f) ∈ sentTo k (Bridge.run cfg steps).trace := by
    rw [← hb]
    exact List.mem_filterMap.2 ⟨_, hm, rfl⟩
  obtain ⟨ev, h2, h3⟩ := List.mem_filterMap.1 h1
  have h4 : f ∈ Bridge.given i k (Bridge.run cfg steps).trace := by
    refine List.mem_filterMap.2 ⟨ev, h2, ?_⟩
    cases ev with
    | sent j l g =>
      by_cases hl : l = k
      · simp only [hl, if_true, Option.some.injEq, Prod.mk.injEq] at h3
        simp [hl, h3.1, h3.2]
      · simp [hl] at h3
    | _ => cases h3
  have inv := Bridge.inv_run cfg steps
  by_cases hik : i = k
  · rw [hik, inv.self] at h4
    cases h4
  · by_cases hk : k < cfg.ports
    · have h5 : f ∈ (Bridge.receivedBy i (Bridge.run cfg steps).trace).filter (Bridge.forwards cfg) := by
        rw [inv.order i k hk hik]
        exact List.mem_append_left _ h4
      exact hf ((Bridge.forwards_iff cfg f).1 (List.mem_filter.1 h5).2)
    · rw [inv.far i k (by omega)] at h4
      cases h4

/-- Three frames are received by port 0 of a bridge with two ports and forwarded to port 1. -/
def tenBridge : List Bridge.Step :=
  (tenSent.take 1).flatMap (fun f => [.recv 0 (.ok (some (sentAs f))), .send 0 (.ok ())]) ++ [.recv 0 (.ok (some otherFrame)), .send 0 (.ok ())] ++
  (tenSent.drop 1).flatMap (fun f => [.recv 0 (.ok (some (sentAs f))), .send 0 (.ok ())])

/-- On the bus of port 1 there is a frame of a node between them. -/
def tenBus : List (Option Nat × CANFrame) :=
  (tenSent.take 1).map (fun f => (some 0, sentAs f)) ++ [(none, otherFrame), (some 0, otherFrame)] ++ (tenSent.drop 1).map (fun f => (some 0, sentAs f))

example : Bridge.receivedBy 0 (Bridge.run ⟨2, none⟩ tenBridge).trace = [] ++ tenLog.map (·.1) ++ [] ∧
    (∀ ev ∈ (Bridge.run ⟨2, none⟩ tenBridge).trace, match ev with | .refused _ _ _ _ => False | _ => True) ∧
    ((Bridge.run ⟨2, none⟩ tenBridge).thread 0).work = none ∧ OnBus 1 (Bridge.run ⟨2, none⟩ tenBridge).trace tenBus ∧
    (tenBus.filter (fun x => x.1 ≠ some 0)).map (·.2) = [otherFrame] := by
  refine ⟨by decide +kernel, ?_, by decide +kernel, ?_, by decide +kernel⟩
  · have : (Bridge.run ⟨2, none⟩ tenBridge).trace.all (fun ev => match ev with | .refused _ _ _ _ => false | _ => true) = true := by decide +kernel
    intro ev hev
    have := List.all_eq_true.1 this ev hev
    cases ev <;> simp_all
  · show ofBridge tenBus = sentTo 1 (Bridge.run ⟨2, none⟩ tenBridge).trace
    decide +kernel

end EndToEnd
end Dronecan
