import Verif.Props.UsersStories
import Verif.Props.Growth

/-! # C200: users who make calls of all kinds, how much comes to be stored, and how long their answers are -/

namespace Hop

open Spec Prog

/-- How many bytes the requests are that users have made so far, and two for each. -/
def Spec.sentSoFar (p : UserPool) : Nat := ((requested p).map fun e => e.1.1.buf.length + 2).sum

private theorem sent_perm {l : List ((Request × Bytes) × Prog Bytes)} {p : UserPool} (h : l.Perm (requested p)) :
    ((l.map Prod.fst).map fun r => r.1.buf.length + 2).sum = sentSoFar p := by
  simp only [sentSoFar, List.map_map]
  exact (h.map _).sum_nat

/-- **C200.** Users make calls of all kinds, each depending on what their calls so far came to. At every moment at most as much is stored as at the
beginning, and the bytes of the requests made so far, and two bytes for each. -/
theorem C200_stored (env : Env) (shard : UInt32 → Nat) (us : List User) (h : HopEngine) (sched : List Nat) (ks : List Bytes) (hn : ks.Nodup)
    (hk : ∀ k v, h.db.keys k = some v → k ∈ ks) :
    stored ks ((userPool us h).exec env shard sched).engine.db.keys ≤ stored ks h.db.keys + sentSoFar ((userPool us h).exec env shard sched) := by
  obtain ⟨l, turns, h1, h2, -⟩ := C153_requests env shard us h sched
  rw [h2, ← sent_perm h1]
  exact C198_at_once env (l.map Prod.fst) h.db turns ks hn hk

/-- **C200.** Whatever a user's request other than Stats has been answered with is at most 13 bytes longer than the request, what was stored at the beginning,
and the requests made so far, with two bytes for each. -/
theorem C200_answers (env : Env) (shard : UInt32 → Nat) (us : List User) (h : HopEngine) (sched : List Nat) (ks : List Bytes) (hn : ks.Nodup)
    (hk : ∀ k v, h.db.keys k = some v → k ∈ ks) (r : Request) (resp out : Bytes) (hs : r.commandId ≠ .stats)
    (ho : (.dispatch r resp, .command (.done (.ok out))) ∈ ((userPool us h).exec env shard sched).made) :
    out.length ≤ resp.length + 13 + r.buf.length + stored ks h.db.keys + sentSoFar ((userPool us h).exec env shard sched) := by
  obtain ⟨l, turns, h1, -, h3⟩ := C153_requests env shard us h sched
  have hm : ((r, resp), Prog.done (.ok out)) ∈ l := h1.mem_iff.mpr (List.mem_filterMap.mpr ⟨_, ho, rfl⟩)
  obtain ⟨j, hj⟩ := List.getElem?_of_mem hm
  obtain ⟨u, hu, -, he⟩ := h3 j _ _ hj
  have := C199_at_once env (l.map Prod.fst) h.db turns ks hn hk j r resp out (by rw [List.getElem?_map, hj]; rfl) (by rw [← he hs] at hu; exact hu)
  rw [sent_perm h1] at this
  simp only [hs, if_false] at this
  omega

/-- Beside C200: the users of C153's example, with eight calls. -/
example : sentSoFar adding = 93 ∧ stored [[1]] addingFrom.db.keys = 9 ∧ stored [[1]] adding.engine.db.keys = 9 := by decide +kernel

private def pushing : List User :=
  [User.fixed [.dispatch (call .append none [[7], ascii "abcdefghij"]) [], .metric .sessionsStarted, .dispatch (call .append none [[7], ascii "klm"]) []],
   User.fixed [.dispatch (call .get none [[7]]) [], .dispatch (call .get none [[7]]) []]]

private def pushed : UserPool := (userPool pushing HopEngine.new).exec (sampleEnv .debug) (fun s => s.toNat) (List.replicate 40 [0, 0, 0, 1]).flatten

/-- Two Appends to a key that was not there and two Gets of it, in 57 bytes with two for each: 18 bytes come to be stored. -/
example : sentSoFar pushed = 57 ∧ stored [[7]] pushed.engine.db.keys = 18 := by decide +kernel

end Hop
