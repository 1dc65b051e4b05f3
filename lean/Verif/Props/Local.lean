import Verif.Spec.Local
import Verif.Lemmas.Local
import Verif.Props.Linear
import Verif.Props.Interleave

/-! # C156, C157: commands on keys that nobody replaces, while anything happens to the other keys -/

namespace Hop

open Spec Prog

theorem confined_touches {env : Env} {K : Bytes → Prop} {r : Request} {c : Call} (hv : Views r c.cmd c.kt c.args)
    (hc : Confined K c) (resp : Bytes) : Touches K (dispatch env r resp) := by
  have h0 : ∀ k, r.arg 0 = some k → K k := fun k hk => hc.2 k (by rw [← hv.arg 0]; exact hk)
  refine (touches_command h0 ?_ ?_).andThen fun r => Touches.countOutcome r
  · intro h
    have hs : Steady K c := hc.1
    rw [hv.command] at h
    unfold Steady at hs
    rw [h] at hs
    exact absurd hs id
  · intro h l hl k hk
    rw [argsFrom_eq hv] at hl
    have hlen : c.args.length ≤ 1 := by
      have hs : Steady K c := hc.1
      rw [hv.command] at h
      unfold Steady at hs
      rcases h with h | h <;> (rw [h] at hs; exact hs)
    split at hl
    · cases hl
    · simp only [List.drop_zero, Option.some.injEq] at hl
      subst hl
      match hargs : c.args, hlen with
      | [], _ => rw [hargs] at hk; simp at hk
      | [a], _ =>
        rw [hargs] at hk
        simp at hk
        subst hk
        exact hc.2 k (by rw [hargs]; rfl)

theorem bystander_writes {env : Env} {K : Bytes → Prop} {r : Request} {c : Call} (hv : Views r c.cmd c.kt c.args)
    (hb : ∀ k, K k → Bystander k c) (resp : Bytes) : Writes (fun k => ¬ K k) (dispatch env r resp) := by
  refine writes_dispatch ?_ ?_
  · intro hn k hk hKk
    rcases hb k hKk with h | h
    · rw [hv.command] at hn; exact hn h
    · rw [hv.arg 0] at hk; exact h.1 hk
  · intro hcmd k hk hKk
    rw [hv.command] at hcmd
    rw [hv.arg 1] at hk
    rcases hb k hKk with h | h
    · rw [hcmd] at h; simp at h
    · exact h.2 hcmd hk

theorem accounts_ledger (mine : Request → Bool) (c : Client) (got : List (Outcome DispatchError Bytes)) :
    accounts mine c got = ledger (fun x => mine x.1) c got := by
  refine filterMap_agree _ fun j _ => ?_
  cases c (got.take j) <;> cases got[j]? <;> rfl

/-- C156. Any number of clients issue any number of commands of all kinds, every one depending on the answers so far; but
nobody replaces the keys `K`, which exist: the commands marked by `mine` are read commands, counter commands and Appends on
keys of `K` (see `Confined`), and the others cannot change these keys. To every moment of every execution belongs a book of
the marked commands that have taken effect, in an order; a later moment only adds to the end of it. Serving nothing but the
book, one command after the other, gives the stored values of the keys `K`; and it gives the marked commands of each client
the answers the client has received, and perhaps that of the command it is waiting for. -/
theorem C156_as_if_alone {env : Env} {cs : List (Client × Nat)} (K : Bytes → Prop) (mine : Request → Bool)
    (hK : ∀ c ∈ cs, ∀ r, Client.Issues c.1 r → ∃ call : Call, Views r call.cmd call.kt call.args ∧
      (mine r = true → Confined K call) ∧ (mine r = false → ∀ k, K k → Bystander k call))
    (db : Db) (hex : ∀ k, K k → db.keys k ≠ none) (hc : Roomy (cs.map (·.2)).sum db.ctrs) :
    ∃ (book : List Nat → Book) (got : List Nat → Nat → List (Outcome DispatchError Bytes)),
      (∀ s s', book s <+: book (s ++ s')) ∧ (∀ s s' i, got s i <+: got (s ++ s') i) ∧ ∀ s,
      (∀ k, K k → ((Clients.pool env cs db).exec s).db.keys k = (serveAll env (book s).requests db).2.keys k) ∧
      (book s).length ≤ (cs.map (·.2)).sum ∧
      (∀ e ∈ book s, e.1 < cs.length ∧ mine e.2.2.1 = true ∧ ∃ c ∈ cs, Client.Issues c.1 e.2.2.1) ∧
      ∀ (i : Nat) c t, cs[i]? = some c → ((Clients.pool env cs db).exec s).threads[i]? = some t →
        c.1.Amid env c.2 (got s i) t ∧
        (chosen i ((book s).with (serveAll env (book s).requests db).1) = accounts mine c.1 (got s i) ∨
        (¬ Ended t) ∧ ∃ x o, c.1 (got s i) = some x ∧ mine x.1 = true ∧
          chosen i ((book s).with (serveAll env (book s).requests db).1) =
            accounts mine c.1 (got s i) ++ [(((got s i).length, x), o)]) := by
  obtain ⟨book, got, h1, h2, h3⟩ := agents_book (cs := cs) (act := fun x : Request × Bytes => dispatch env x.1 x.2)
    (Inv := Kinds K fun k => ((db.keys k).map Value.kind).getD .bytes) K (fun x => mine x.1)
    (by
      rintro c hc ⟨r, resp⟩ ⟨past, hr⟩ hm
      obtain ⟨call, hv, hs, -⟩ := hK c hc r ⟨past, resp, hr⟩
      exact ⟨(single_dispatch hv (hs hm).1).imp fun _ h => h.1, confined_touches hv (hs hm) resp⟩)
    (by
      rintro c hc ⟨r, resp⟩ ⟨past, hr⟩ hm
      obtain ⟨call, hv, -, hs⟩ := hK c hc r ⟨past, resp, hr⟩
      exact bystander_writes hv (hs hm) resp)
    (fun _ _ x _ => Counts.dispatch env x.1 x.2) (fun s s' h hi k hk => by rw [← h k hk]; exact hi k hk) db (kinds_of hex) hc
  refine ⟨book, got, h1, h2, fun s => ?_⟩
  obtain ⟨g1, g2, g3, g4⟩ := h3 s
  rw [Clients.pool_agents, serveAll_actAll]
  refine ⟨g1, g2, fun e he => ?_, fun i c t hi ht => ?_⟩
  · obtain ⟨a1, c, hcm, ⟨past, a2⟩, a3⟩ := g3 e he
    exact ⟨a1, a3, c, hcm, past, e.2.2.2, a2⟩
  · obtain ⟨b1, b2⟩ := g4 i c t hi ht
    simp only [accounts_ledger]
    exact ⟨b1.client, b2⟩

theorem fixed_issues {rs : List Request} {r : Request} (h : Client.Issues (Client.fixed rs) r) : r ∈ rs := by
  obtain ⟨past, resp, h⟩ := h
  simp only [Client.fixed, Option.map_eq_some_iff, Prod.mk.injEq] at h
  obtain ⟨r', h1, rfl, -⟩ := h
  exact List.mem_of_getElem? h1

/-- Beside C156: two clients increment a counter, one of them sets, renames and deletes other keys in between. -/
example : let rs := [call .increment none [[1]], call .set none [[2], [7]], call .rename none [[2], [3]], call .increment none [[1]]]
    let ds := [call .increment none [[1]], call .delete none [[3]], call .get none [[1]]]
    let cs := [(Client.fixed rs, 4), (Client.fixed ds, 3)]
    let db := sampleDb [([1], .integer 5)]
    ∃ (book : List Nat → Book) (got : List Nat → Nat → List (Outcome DispatchError Bytes)),
      (∀ s s', book s <+: book (s ++ s')) ∧ (∀ s s' i, got s i <+: got (s ++ s') i) ∧ ∀ s,
      (((Clients.pool (sampleEnv .debug) cs db).exec s).db.keys [1] = (serveAll (sampleEnv .debug) (book s).requests db).2.keys [1]) ∧
      (book s).length ≤ 7 := by
  intro rs ds cs db
  have v : ∀ (c : CommandId) (args : List Bytes), c ≠ .stats → args.length ≤ 255 → (∀ a ∈ args, a ≠ []) →
      Views (call c none args) c none args := fun c args h1 h2 h3 => call_views c none args (.inl h1) h2 h3
  obtain ⟨book, got, h1, h2, h3⟩ := C156_as_if_alone (env := sampleEnv .debug) (cs := cs) (· = [1])
    (fun r => decide (r.commandId = .increment ∨ r.commandId = .get)) (by
      intro e he r hr
      have hr' : ∃ c args, r = call c none args ∧ ((c, args) : CommandId × List Bytes) ∈
          [(.increment, [[1]]), (.set, [[2], [7]]), (.rename, [[2], [3]]), (.delete, [[3]]), (.get, [[1]])] := by
        simp only [cs, List.mem_cons, List.not_mem_nil, or_false] at he
        rcases he with rfl | rfl
        · have := fixed_issues hr
          simp only [rs, List.mem_cons, List.not_mem_nil, or_false] at this
          rcases this with rfl | rfl | rfl | rfl <;> exact ⟨_, _, rfl, by simp⟩
        · have := fixed_issues hr
          simp only [ds, List.mem_cons, List.not_mem_nil, or_false] at this
          rcases this with rfl | rfl | rfl <;> exact ⟨_, _, rfl, by simp⟩
      obtain ⟨c, args, rfl, hm⟩ := hr'
      simp only [List.mem_cons, Prod.mk.injEq, List.not_mem_nil, or_false] at hm
      have hv : Views (call c none args) c none args := by
        rcases hm with ⟨rfl, rfl⟩ | ⟨rfl, rfl⟩ | ⟨rfl, rfl⟩ | ⟨rfl, rfl⟩ | ⟨rfl, rfl⟩ <;> exact v _ _ (by decide) (by decide) (by decide)
      refine ⟨⟨c, none, args⟩, hv, ?_, ?_⟩ <;> simp only [hv.command]
      · intro h
        rcases hm with ⟨rfl, rfl⟩ | ⟨rfl, rfl⟩ | ⟨rfl, rfl⟩ | ⟨rfl, rfl⟩ | ⟨rfl, rfl⟩ <;> first
          | (exact absurd h (by decide))
          | exact ⟨by simp [Steady], fun k hk => by simpa using hk.symm⟩
      · rintro h k rfl
        rcases hm with ⟨rfl, rfl⟩ | ⟨rfl, rfl⟩ | ⟨rfl, rfl⟩ | ⟨rfl, rfl⟩ | ⟨rfl, rfl⟩ <;> first
          | (exact absurd h (by decide))
          | exact .inr ⟨by decide, by decide⟩) db (by rintro k rfl; decide +kernel) (sampleDb_roomy _ _ (by decide))
  exact ⟨book, got, h1, h2, fun s => ⟨(h3 s).1 _ rfl, (h3 s).2.1⟩⟩

end Hop
