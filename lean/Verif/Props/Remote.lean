import Verif.Props.ClientLimits
import Verif.Props.Server

/-! # C116: clients over TCP -/

namespace Hop

open Spec Client.Server

/-- A client that makes calls one after the other over one connection, each while the server has sent some bytes:
everything it sends, and what the calls resolve to. -/
def Spec.dial (env : Env) : Option Nat → List (Api × Bytes) → Bytes × List (Outcome Client.Server.Error Got)
  | _, [] => ([], [])
  | room, (a, incoming) :: rest =>
    let (sent, o) := a.serve env 1 ⟨room, incoming⟩
    let (more, os) := dial env (room.map (· - sent.length)) rest
    (sent ++ more, o :: os)

/-- The call ends in an error or a panic. -/
def Spec.Failed {ε α} (o : Outcome ε α) : Prop := o = .panic ∨ ∃ e, o = .err e

theorem BuilderEnds.failed {m : Mode} {n : Nat} {r : Builder.Res} (h : BuilderEnds m n r) {f : Builder → Job Got}
    (hf : ∀ b, Filled m b n → Failed (f b).2) : Failed (Client.Server.built r f).2 := by
  cases h with
  | ok h => exact hf _ h
  | panic => exact .inl rfl
  | err => exact .inr ⟨_, rfl⟩

theorem exchanged_failed (fuel : Nat) (c : Conn) (w : Bytes) : Failed (exchanged (fuel + 1) c w).2 := by
  unfold exchanged
  dsimp only
  split
  · rw [if_neg (by omega)]; exact .inr ⟨_, rfl⟩
  · exact .inr ⟨_, rfl⟩

/-- C116. No call over TCP ever succeeds: whatever the call, the number of its arguments, the connection and the
bytes the server sends, it ends in an error or a panic. -/
theorem C116_no_success (env : Env) (fuel : Nat) (c : Conn) (a : Api) : Failed (a.serve env (fuel + 1) c).2 := by
  have bound : ∀ {α} (F : α → Got) (b : Builder) (f : Value → Outcome Client.Server.Error α),
      Failed (wrapRemote F (Client.Server.bind (sendAndWait env.mode (fuel + 1) c b) f)).2 := by
    intro α F b f; rw [exchanged_bind F _ _ c b f rfl]; exact exchanged_failed fuel c _
  have plain : ∀ (b : Builder), Failed (wrapRemote Got.value (sendAndWait env.mode (fuel + 1) c b)).2 := by
    intro b; rw [exchanged_plain _ _ c b rfl]; exact exchanged_failed fuel c _
  cases a with
  | append k v =>
    simp only [Api.serve, Api.serveBy, Client.Server.append, wrapRemote_built]
    refine ((Filled.new env.mode _ _).bytes k).failed fun b hb => ?_
    cases v with
    | list l => simp only [wrapRemote_built]; exact (hb.bytesAll l).failed fun b' _ => plain b'
    | bytes x => simp only [wrapRemote_built]; exact (hb.bytes x).failed fun b' _ => plain b'
    | string x => simp only [wrapRemote_built]; exact (hb.bytes _).failed fun b' _ => plain b'
    | _ => exact .inr ⟨_, rfl⟩
  | set k v =>
    simp only [Api.serve, Api.serveBy, Client.Server.set, wrapRemote_built]
    refine ((Filled.new env.mode _ _).bytes k).failed fun b hb => ?_
    exact (hb.value v).failed fun b' _ => plain b'
  | incrementBy k v =>
    simp only [Api.serve, Api.serveBy, Client.Server.incrementBy]
    split
    · exact .inr ⟨_, rfl⟩
    · simp only [wrapRemote_built]
      refine ((Filled.new env.mode _ _).bytes k).failed fun b hb => ?_
      exact (hb.value v).failed fun b' _ => bound _ b' _
  | decrementBy k v =>
    simp only [Api.serve, Api.serveBy, Client.Server.decrementBy, wrapRemote_built]
    refine ((Filled.new env.mode _ _).bytes k).failed fun b hb => ?_
    split
    · exact .inr ⟨_, rfl⟩
    · rw [wrapRemote_built]
      exact (hb.value v).failed fun b' _ => bound _ b' _
  | «exists» ks =>
    simp only [Api.serve, Api.serveBy, Client.Server.exists, wrapRemote_built, Builder.new_eq]
    exact ((Filled.new env.mode _ _).bytesAll ks).failed fun b' _ => bound _ b' _
  | is t ks =>
    simp only [Api.serve, Api.serveBy, Client.Server.is, wrapRemote_built]
    exact ((Filled.new env.mode _ _).bytesAll ks).failed fun b' _ => bound _ b' _
  | rename x y =>
    simp only [Api.serve, Api.serveBy, Client.Server.rename, wrapRemote_built, Builder.new_eq]
    refine ((Filled.new env.mode _ _).bytes x).failed fun b hb => ?_
    exact (hb.bytes y).failed fun b' _ => bound _ b' _
  | stats => exact bound _ _ _
  | get k =>
    simp only [Api.serve, Api.serveBy, Client.Server.get, wrapRemote_built, Builder.new_eq]
    exact ((Filled.new env.mode _ _).bytes _).failed fun b' _ => plain b'
  | decrement k t =>
    simp only [Api.serve, Api.serveBy, Client.Server.decrement, wrapRemote_built]
    exact ((Filled.new env.mode _ _).bytes _).failed fun b' _ => bound _ b' _
  | length k t =>
    simp only [Api.serve, Api.serveBy, Client.Server.length, wrapRemote_built]
    exact ((Filled.new env.mode _ _).bytes _).failed fun b' _ => bound _ b' _
  | delete k =>
    simp only [Api.serve, Api.serveBy, Client.Server.delete, wrapRemote_built, Builder.new_eq]
    exact ((Filled.new env.mode _ _).bytes _).failed fun b' _ => bound _ b' _
  | echo k =>
    simp only [Api.serve, Api.serveBy, Client.Server.echo, wrapRemote_built, Builder.new_eq]
    exact ((Filled.new env.mode _ _).bytes _).failed fun b' _ => bound _ b' _
  | increment k t =>
    simp only [Api.serve, Api.serveBy, Client.Server.increment, wrapRemote_built, Builder.new_eq]
    exact ((Filled.new env.mode _ _).bytes _).failed fun b' _ => bound _ b' _
  | keyType k =>
    simp only [Api.serve, Api.serveBy, Client.Server.keyType, wrapRemote_built, Builder.new_eq]
    exact ((Filled.new env.mode _ _).bytes _).failed fun b' _ => bound _ b' _
  | keys k =>
    simp only [Api.serve, Api.serveBy, Client.Server.keys, wrapRemote_built, Builder.new_eq]
    exact ((Filled.new env.mode _ _).bytes _).failed fun b' _ => bound _ b' _

/-- C116. Any number of clients making any calls over TCP at the same time, on connections that may fail, while the
server reads what they send: at every moment no stored key has changed, and no call has succeeded. -/
theorem C116_remote (env : Env) (clients : List (Option Nat × List (Api × Bytes))) (db : Db) (sched : List Nat) :
    ((Server.serve env (clients.map fun c => (dial env c.1 c.2).1) db).exec sched).db.keys = db.keys ∧
    ∀ c ∈ clients, (dial env c.1 c.2).2.length = c.2.length ∧ ∀ o ∈ (dial env c.1 c.2).2, Failed o := by
  refine ⟨C63_no_key_changes env _ db sched, ?_⟩
  rintro ⟨room, calls⟩ -
  dsimp only
  induction calls generalizing room with
  | nil => exact ⟨rfl, by simp [dial]⟩
  | cons x calls ih =>
    obtain ⟨a, incoming⟩ := x
    obtain ⟨h1, h2⟩ := ih (room.map (· - (a.serve env 1 ⟨room, incoming⟩).1.length))
    refine ⟨?_, ?_⟩
    · simp only [dial, List.length_cons]; omega
    · intro o ho
      simp only [dial, List.mem_cons] at ho
      rcases ho with rfl | ho
      · exact C116_no_success env 0 _ a
      · exact h2 o ho

/-! ## Concrete cases -/

/-- Set and then get a key over TCP, the server having answered the frame of a value: both fail, and 27 bytes went
over the wire. -/
example : (dial (sampleEnv .debug) none [(.set [107] (.integer 7), []), (.get [107], [0, 0, 0, 2, 0, 1])]).2 =
    [.err .connectionClosed, .err .connectionClosed] := by decide +kernel

/-- The connection breaks down during the second call. -/
example : dial (sampleEnv .debug) (some 10) [(.get [107], []), (.get [108], []), (.delete [], [])] =
    ([11, 1, 0, 0, 0, 1, 107, 11, 1, 0],
      [.err .connectionClosed, .err .writingMessage, .err (.buildingRequest .argumentEmpty)]) := by decide +kernel

end Hop
