import Verif.Props.ServerLimits
import Verif.Props.ServerFlow

/-! # C219: how much waits for clients that are slow to read -/

namespace Hop

open Spec Prog
open Server (Net NetEvent Live Task Flow FlowNet FlowEvent)

/-- What the server has answered on connection `i` and the client has not read. -/
def Spec.unreadBy (n : FlowNet) (i : Nat) : Bytes :=
  match n.conns[i]? with
  | some c => c.live.sent.drop c.read
  | none => []

theorem told_step_sent {env : Env} {ok : Metric → Option Nat → Prop} {got : Bytes} {closed : Prop} {s f : Nat} {c : Live}
    (h : LiveTold env ok got closed s f c) (db : Db) : (c.step env db).1.sent.length ≤ c.sent.length + 97 := by
  obtain ⟨-, ps, hs, rs, sofar, -, -, -, -, -, h5⟩ := h
  have look : ∀ (c : Live) ctx input, (c.look env ctx input).sent.length ≤ c.sent.length + 97 := by
    intro c ctx input
    unfold Live.look
    split <;> simp [Response.writeParseError]
  obtain ⟨pending, cl, sent, task⟩ := c
  cases task with
  | reading ctx input size =>
    cases pending with
    | nil =>
      simp only [Live.step]
      split
      · split
        · simp
        · exact look _ _ _
      · simp
    | cons b rest =>
      simp only [Live.step]
      split
      · exact look ⟨rest, cl, sent, _⟩ _ _
      · simp
  | running p ctx =>
    cases p with
    | done o =>
      obtain ⟨piece, cmd, -, -, -, -, -, hl, -⟩ := h5
      obtain ⟨r, ha, ⟨-, rfl⟩ | ⟨e, -, rfl⟩⟩ := hl
      · have := responds_length env (h := .command cmd) ha
        simp [Live.step]; omega
      · simp [Live.step, Response.writeDispatchError]
    | onKey k upd next => simp [Live.step]
    | onCtr m upd next => simp [Live.step]
  | over e => simp [Live.step]
  | stuck => simp [Live.step]

/-- Little waits. -/
def LittleWaits (b : Nat) (c : Flow) : Prop := c.wrote ≤ c.read + b ∧ c.live.sent.length ≤ c.wrote + 97

theorem flow_told (env : Env) (a b k : Nat) (db : Db) (es : List FlowEvent) (hr : Roomy (1 + es.length) db.ctrs) (i : Nat) (c : Flow)
    (hc : ((FlowNet.start k db).exec env a b es).conns[i]? = some c) :
    ∃ ok s f, LiveTold env ok (accepted env a b i (FlowNet.start k db) es) (.hangup i ∈ es) s f c.live := by
  have hl := passAll_length env a b es (FlowNet.start k db)
  have hp := plain_exec env a b es (FlowNet.start k db)
  have hc' : ((Net.start k db).exec env (passAll env a b (FlowNet.start k db) es)).conns[i]? = some c.live := by
    rw [← plain_start, ← hp]; simp [plainNet, hc]
  have hi : i < k := by
    have h1 := net_length env k db (passAll env a b (FlowNet.start k db) es)
    have h2 := (List.getElem?_eq_some_iff.mp hc').1
    omega
  obtain ⟨c', s, f, h1, h2⟩ := told env k db (passAll env a b (FlowNet.start k db) es) (Roomy.mono hr (by omega)) i hi
  rw [hc'] at h1
  cases h1
  rw [passAll_arrived] at h2
  simp only [passAll_hangup] at h2
  exact ⟨_, s, f, h2⟩

theorem littleWaits_exec (env : Env) (a b k : Nat) (db : Db) (es : List FlowEvent) (hr : Roomy (1 + es.length) db.ctrs) :
    ∀ (i : Nat) (c : Flow), ((FlowNet.start k db).exec env a b es).conns[i]? = some c → LittleWaits b c := by
  induction es using snoc_ind with
  | h0 =>
    intro i c hc
    obtain ⟨hlt, hc⟩ := List.getElem?_eq_some_iff.mp hc
    simp [FlowNet.exec, FlowNet.start, Net.start] at hc
    subst hc
    exact ⟨Nat.zero_le _, Nat.zero_le _⟩
  | h1 es e ih =>
    have hr' : Roomy (1 + es.length) db.ctrs := Roomy.mono hr (by simp)
    have ih := ih hr'
    have ht := flow_told env a b k db es hr'
    have ho := inOrder_exec env a b k db es
    rw [flow_exec_snoc]
    generalize (FlowNet.start k db).exec env a b es = n at ih ht ho
    have put : ∀ (j : Nat) (x : Flow), LittleWaits b x → ∀ (i : Nat) (c : Flow), (n.conns.set j x)[i]? = some c → LittleWaits b c := by
      intro j x hx i c hc
      rw [List.getElem?_set] at hc
      split at hc
      · split at hc
        · cases hc; exact hx
        · cases hc
      · exact ih i c hc
    cases e with
    | send j bytes =>
      simp only [FlowNet.step]
      split
      · exact ih
      · rename_i x hx
        split
        · exact ih
        · exact put j _ (ih j x hx)
    | hangup j =>
      simp only [FlowNet.step]
      split
      · exact ih
      · rename_i x hx; exact put j _ (ih j x hx)
    | read j m =>
      simp only [FlowNet.step]
      split
      · exact ih
      · rename_i x hx
        have h1 := ih j x hx
        have h2 := ho x (List.mem_of_getElem? hx)
        refine put j _ ⟨?_, h1.2⟩
        have := h1.1
        have := h2.1
        simp only
        omega
    | turn j =>
      simp only [FlowNet.step]
      split
      · exact ih
      · rename_i x hx
        have h1 := ih j x hx
        have h2 := ho x (List.mem_of_getElem? hx)
        refine put j _ ?_
        simp only [Flow.step]
        split
        · exact h1
        · split
          · rename_i hw
            simp only [Flow.writing, decide_eq_true_eq] at hw
            split
            · have := h1.2
              exact ⟨by simp only; omega, by simp only; omega⟩
            · exact h1
          · rename_i hw
            simp only [Flow.writing, decide_eq_true_eq] at hw
            obtain ⟨ok, s, f, h3⟩ := ht j x hx
            have h4 := told_step_sent h3 n.db
            exact ⟨h1.1, by simp only; omega⟩
    | fail j =>
      simp only [FlowNet.step]
      split
      · exact ih
      · rename_i x hx
        split
        · exact put j _ (ih j x hx)
        · exact ih

/-- **C219.** However slow a client is to read, at every moment at most 97 bytes of answers to it wait, besides those the
system has room for. -/
theorem C219_waits (env : Env) (inRoom outRoom k : Nat) (db : Db) (events : List FlowEvent)
    (hr : Roomy (1 + events.length) db.ctrs) (i : Nat) :
    (unreadBy ((FlowNet.start k db).exec env inRoom outRoom events) i).length ≤ outRoom + 97 := by
  unfold unreadBy
  split
  · rename_i c hc
    have := littleWaits_exec env inRoom outRoom k db events hr i c hc
    have h1 := this.1
    have h2 := this.2
    rw [List.length_drop]
    omega
  · simp

/-- **C219.** What has been answered to a client, whether it has read it or not, is at most 97 bytes for each newline it has managed to send, with 97 more if it has hung
up, and never more than 97 bytes for each byte it has managed to send. -/
theorem C219_answered (env : Env) (inRoom outRoom k : Nat) (db : Db) (events : List FlowEvent)
    (hr : Roomy (1 + events.length) db.ctrs) (i : Nat) :
    (readBy ((FlowNet.start k db).exec env inRoom outRoom events) i ++
          unreadBy ((FlowNet.start k db).exec env inRoom outRoom events) i).length ≤
        97 * ((accepted env inRoom outRoom i (FlowNet.start k db) events).count 10 + if .hangup i ∈ events then 1 else 0) ∧
      (readBy ((FlowNet.start k db).exec env inRoom outRoom events) i ++
          unreadBy ((FlowNet.start k db).exec env inRoom outRoom events) i).length ≤
        97 * (accepted env inRoom outRoom i (FlowNet.start k db) events).length := by
  unfold readBy unreadBy
  cases hc : ((FlowNet.start k db).exec env inRoom outRoom events).conns[i]? with
  | none => simp
  | some c =>
    simp only [List.take_append_drop]
    obtain ⟨ok, s, f, h⟩ := flow_told env inRoom outRoom k db events hr i c hc
    obtain ⟨part, rest, hg, he, hw⟩ := told_answered h
    have hl := lines_length_le part
    rw [hg, List.count_append, List.length_append]
    refine ⟨?_, by omega⟩
    split
    · omega
    · rename_i hn
      have := lines_length_ends (he.resolve_right hn)
      omega

/-- A client that never reads sends an unreadable line and asks for statistics. -/
def neverReads : List FlowEvent := [.send 0 [255, 10, 101, 10]] ++ List.replicate 40 (.turn 0)

theorem roomy_neverReads : Roomy (1 + neverReads.length) countedDb.ctrs := by
  intro m
  cases m <;> decide +kernel

example := C219_waits (sampleEnv .debug) 8 6 1 countedDb neverReads roomy_neverReads 0
example := C219_answered (sampleEnv .debug) 8 6 1 countedDb neverReads roomy_neverReads 0

/-- The limit is reached. -/
example : (unreadBy ((FlowNet.start 1 countedDb).exec (sampleEnv .debug) 8 6 neverReads) 0).length = 6 + 97 := by decide +kernel

end Hop
