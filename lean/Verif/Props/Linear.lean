import Verif.Spec.Linear
import Verif.Lemmas.Agents
import Verif.Props.Concurrent

/-! # C142: clients that issue many commands are served as if one command after the other -/

namespace Hop

open Spec Prog

/-! ## Clients are agents -/

theorem Client.prog_agent (env : Env) (c : Client) (n : Nat) (past : List (Outcome DispatchError Bytes)) :
    Client.prog env c n past = Agent.prog (fun x : Request × Bytes => dispatch env x.1 x.2) c n past := by
  induction n generalizing past with
  | zero => rfl
  | succ n ih =>
    simp only [Client.prog, Agent.prog]
    cases c past with
    | none => rfl
    | some x => simp only [ih]

theorem Clients.pool_agents (env : Env) (cs : List (Client × Nat)) (db : Db) :
    Clients.pool env cs db = Agents.pool (fun x : Request × Bytes => dispatch env x.1 x.2) cs db := by
  simp only [Clients.pool, Agents.pool, Client.prog_agent]

theorem serveAll_actAll (env : Env) (l : List (Request × Bytes)) (db : Db) :
    serveAll env l db = actAll (fun x : Request × Bytes => dispatch env x.1 x.2) l db := by
  induction l generalizing db with
  | nil => rfl
  | cons x l ih => simp only [serveAll, actAll, ih]

theorem Agent.Amid.client {env : Env} {c : Client} {n : Nat} {got : List (Outcome DispatchError Bytes)}
    {t : Prog (List (Outcome DispatchError Bytes))}
    (h : Agent.Amid (fun x : Request × Bytes => dispatch env x.1 x.2) c n got t) : c.Amid env n got t := by
  rcases h with h | ⟨x, p, h1, h2, h3, h4, h5⟩
  · exact .inl h
  · exact .inr ⟨x.1, x.2, p, h1, h2, h3, h4, by simp only [h5, Client.prog_agent]⟩

/-- The kinds of the keys of a database that has all of `K`. -/
theorem kinds_of {K : Bytes → Prop} {db : Db} (hex : ∀ k, K k → db.keys k ≠ none) :
    Kinds K (fun k => ((db.keys k).map Value.kind).getD .bytes) db.keys := by
  intro k hk
  cases hv : db.keys k with
  | none => exact absurd hv (hex k hk)
  | some v => simp [hv]

/-- C142. Any number of clients each issue any number of steady commands (see `Steady`), every one depending on the
answers so far. To every moment of every execution belongs a roll, the commands that have taken effect, in an order; a
later moment only adds to the end of it. Serving the roll, one command after the other, gives the stored keys; the commands of a
client on the roll are the ones it issues, and their answers are those it has received and perhaps that of the command it
is waiting for. -/
theorem C142_one_after_the_other {env : Env} {cs : List (Client × Nat)} (K : Bytes → Prop)
    (hK : ∀ c ∈ cs, ∀ r, Client.Issues c.1 r → ∃ call : Call, Views r call.cmd call.kt call.args ∧ Steady K call)
    (db : Db) (hex : ∀ k, K k → db.keys k ≠ none) (hc : Roomy (cs.map (·.2)).sum db.ctrs) :
    ∃ roll : List Nat → Roll, (∀ s s', ∃ more, roll (s ++ s') = roll s ++ more) ∧ ∀ s,
      ((Clients.pool env cs db).exec s).db.keys = (serveAll env ((roll s).map Prod.snd) db).2.keys ∧
      (∀ e ∈ roll s, e.1 < cs.length) ∧
      ∀ (i : Nat) c t, cs[i]? = some c → ((Clients.pool env cs db).exec s).threads[i]? = some t →
        ∃ outs got, chosen i (((roll s).map Prod.fst).zip (serveAll env ((roll s).map Prod.snd) db).1) = outs ∧
          (∀ (j : Nat) x, (chosen i (roll s))[j]? = some x → c.1 (outs.take j) = some x) ∧
          c.1.Amid env c.2 got t ∧ (outs = got ∨ (¬ Ended t) ∧ ∃ o, outs = got ++ [o]) := by
  obtain ⟨roll, h1, h2⟩ := agents_one_after_the_other (cs := cs) (act := fun x : Request × Bytes => dispatch env x.1 x.2)
    (Inv := Kinds K fun k => ((db.keys k).map Value.kind).getD .bytes) (by
      rintro c hc ⟨r, resp⟩ ⟨past, hr⟩
      obtain ⟨call, hv, hs⟩ := hK c hc r ⟨past, resp, hr⟩
      exact (single_dispatch hv hs).imp fun _ h => h.1) (fun _ _ x _ => Counts.dispatch env x.1 x.2) db (kinds_of hex) hc
  refine ⟨roll, h1, fun s => ?_⟩
  obtain ⟨-, h3, h4, h5⟩ := h2 s
  rw [Clients.pool_agents, serveAll_actAll]
  refine ⟨h3, h4, fun i c t hi ht => ?_⟩
  obtain ⟨outs, got, g1, g2, g3, g4⟩ := h5 i c t hi ht
  exact ⟨outs, got, g1, g2, g3.client, g4⟩

/-- C142, progress: the clients never wait for each other. Three operations for each of its commands, whenever they
happen, finish a client, whatever the others do. -/
theorem C142_finishes {env : Env} {cs : List (Client × Nat)} (K : Bytes → Prop)
    (hK : ∀ c ∈ cs, ∀ r, Client.Issues c.1 r → ∃ call : Call, Views r call.cmd call.kt call.args ∧ Steady K call)
    (db : Db) (hex : ∀ k, K k → db.keys k ≠ none) (hc : Roomy (cs.map (·.2)).sum db.ctrs) (sched : List Nat) (i : Nat)
    (c : Client) (n : Nat) (hi : cs[i]? = some (c, n)) (hn : 3 * n ≤ sched.count i) :
    ∃ outs, ((Clients.pool env cs db).exec sched).threads[i]? = some (.done (.ok outs)) := by
  rw [Clients.pool_agents]
  exact agents_finish (cs := cs) (act := fun x : Request × Bytes => dispatch env x.1 x.2)
    (Inv := Kinds K fun k => ((db.keys k).map Value.kind).getD .bytes) (by
      rintro c hc ⟨r, resp⟩ ⟨past, hr⟩
      obtain ⟨call, hv, hs⟩ := hK c hc r ⟨past, resp, hr⟩
      exact single_dispatch hv hs) (fun _ _ x _ => Counts.dispatch env x.1 x.2) db (kinds_of hex) hc sched i c n hi hn

/-- Beside C142: a client that increments a counter and, seeing the answer, reads it, and one that increments it twice. -/
example : let c : Client := fun past => match past with
      | [] => some (call .increment none [[1]], [])
      | [.ok _] => some (call .get none [[1]], [])
      | _ => none
    let d : Client := fun past => match past with
      | [] => some (call .increment none [[1]], [])
      | [_] => some (call .increment none [[1]], [])
      | _ => none
    let db := sampleDb [([1], .integer 5)]
    let cs := [(c, 2), (d, 2)]
    (∃ roll : List Nat → Roll, (∀ s s', ∃ more, roll (s ++ s') = roll s ++ more) ∧ ∀ s,
      ((Clients.pool (sampleEnv .debug) cs db).exec s).db.keys =
        (serveAll (sampleEnv .debug) ((roll s).map Prod.snd) db).2.keys) ∧
    (∃ outs, ((Clients.pool (sampleEnv .debug) cs db).exec [0, 1, 1, 0, 1, 0, 1, 0, 1, 0, 0]).threads[0]? = some (.done (.ok outs))) ∧
    ((Clients.pool (sampleEnv .debug) cs db).exec [0, 1, 1, 0, 1, 0, 1, 0, 1, 0, 0]).threads.map
      (fun t => match t with | .done r => some r | _ => none) =
      [some (.ok [.ok (frame (.value (.integer 6))), .ok (frame (.value (.integer 8)))]),
        some (.ok [.ok (frame (.value (.integer 7))), .ok (frame (.value (.integer 8)))])] := by
  intro c d db cs
  have v1 : Views (call .increment none [[1]]) .increment none [[1]] := call_views _ _ _ (by decide) (by decide) (by decide)
  have v2 : Views (call .get none [[1]]) .get none [[1]] := call_views _ _ _ (by decide) (by decide) (by decide)
  have s1 : Steady (· = [1]) ⟨.increment, none, [[1]]⟩ := fun k hk => by simpa using hk.symm
  have s2 : Steady (· = [1]) ⟨.get, none, [[1]]⟩ := trivial
  have hK : ∀ e ∈ cs, ∀ r, Client.Issues e.1 r →
      ∃ call : Call, Views r call.cmd call.kt call.args ∧ Steady (· = [1]) call := by
    intro e he r hr
    obtain ⟨past, resp, hp⟩ := hr
    simp only [cs, List.mem_cons, List.not_mem_nil, or_false] at he
    rcases he with rfl | rfl
    · match past with
      | [] => cases hp; exact ⟨_, v1, s1⟩
      | [.ok _] => cases hp; exact ⟨_, v2, s2⟩
      | [.err _] => cases hp
      | [.panic] => cases hp
      | [.stuck] => cases hp
      | o :: _ :: _ => cases o <;> cases hp
    · match past with
      | [] => cases hp; exact ⟨_, v1, s1⟩
      | [_] => cases hp; exact ⟨_, v1, s1⟩
      | _ :: _ :: _ => cases hp
  have hr : Roomy (cs.map (·.2)).sum db.ctrs := sampleDb_roomy _ _ (by decide)
  have hex : ∀ k, k = [1] → db.keys k ≠ none := by rintro k rfl; decide +kernel
  refine ⟨?_, C142_finishes (· = [1]) hK db hex hr _ 0 c 2 rfl (by decide), by decide +kernel⟩
  obtain ⟨roll, h1, h2⟩ := C142_one_after_the_other (env := sampleEnv .debug) (· = [1]) hK db hex hr
  exact ⟨roll, h1, fun s => (h2 s).1⟩

end Hop
