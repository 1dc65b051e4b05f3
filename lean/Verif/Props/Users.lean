import Verif.Spec.Users
import Verif.Props.HopThreads
import Verif.Props.PubSubThreads
import Verif.Props.Sessions
import Verif.Lemmas.Agents

/-! # C150, C151: users of one engine who make one call after the other -/

namespace Hop

open Spec Prog

/-! ## Lists -/

/-- The last of what belongs to `i`. -/
theorem chosen_last {α} (i : Nat) (l : List (Nat × α)) (xs : List α) (a : α) (h : chosen i l = xs ++ [a]) :
    ∃ l1 l2, l = l1 ++ (i, a) :: l2 ∧ chosen i l1 = xs ∧ chosen i l2 = [] := by
  induction l generalizing xs a with
  | nil => simp [chosen] at h
  | cons e l ih =>
    obtain ⟨j, b⟩ := e
    have hc : chosen i ((j, b) :: l) = (if j = i then [b] else []) ++ chosen i l := by
      rw [← chosen_one i j b, ← chosen_append]
      rfl
    rw [hc] at h
    by_cases hl : chosen i l = []
    · rw [hl, List.append_nil] at h
      split at h
      · rename_i hj
        subst hj
        cases xs with
        | nil =>
          simp only [List.nil_append, List.cons.injEq, and_true] at h
          subst h
          exact ⟨[], l, rfl, rfl, hl⟩
        | cons x xs => simp at h
      · simp at h
    · obtain ⟨ys, c, hys⟩ : ∃ ys c, chosen i l = ys ++ [c] :=
        ⟨(chosen i l).dropLast, (chosen i l).getLast hl, (List.dropLast_concat_getLast hl).symm⟩
      obtain ⟨l1, l2, rfl, h1, h2⟩ := ih ys c hys
      have hca : c = a := by
        rw [hys, ← List.append_assoc] at h
        exact (List.append_inj' h rfl).2 |> List.cons.inj |>.1
      subst hca
      refine ⟨(j, b) :: l1, l2, rfl, ?_, h2⟩
      rw [hys, ← List.append_assoc] at h
      have := (List.append_inj' h rfl).1
      rw [← this, ← h1, ← chosen_one i j b, ← chosen_append]
      rfl

theorem zip_append_cons {α β} {as : List α} {bs : List β} {l1 l2 : List (α × β)} {a : α} {b : β}
    (h : as.zip bs = l1 ++ (a, b) :: l2) :
    bs[l1.length]? = some b ∧ as[l1.length]? = some a ∧ ∀ b', as.zip (bs.set l1.length b') = l1 ++ (a, b') :: l2 := by
  induction l1 generalizing as bs with
  | nil =>
    cases as with
    | nil => simp at h
    | cons x as =>
      cases bs with
      | nil => simp at h
      | cons y bs =>
        simp only [List.zip_cons_cons, List.nil_append, List.cons.injEq, Prod.mk.injEq] at h
        obtain ⟨⟨rfl, rfl⟩, rfl⟩ := h
        exact ⟨rfl, rfl, fun _ => rfl⟩
  | cons e l1 ih =>
    cases as with
    | nil => simp at h
    | cons x as =>
      cases bs with
      | nil => simp at h
      | cons y bs =>
        simp only [List.zip_cons_cons, List.cons_append, List.cons.injEq] at h
        obtain ⟨rfl, h⟩ := h
        obtain ⟨h1, h2, h3⟩ := ih h
        exact ⟨by simpa using h1, by simpa using h2, fun b' => by simp [h3 b']⟩

/-! ## Threads that come later -/

theorem initial_thread_free (env : Env) (c : HopCall) (id : UInt32) :
    (match HopCall.thread env c with | .session t => t.holds != some id | _ => true) = true := by
  cases c with
  | session o => cases o <;> rfl
  | _ => rfl

theorem HopPool.stepAt_more (env : Env) (shard : UInt32 → Nat) (p : HopPool) (c : HopCall) (i : Nat)
    (hi : i < p.threads.length) :
    HopPool.stepAt env.mode shard { p with threads := p.threads ++ [HopCall.thread env c] } i =
      { HopPool.stepAt env.mode shard p i with
        threads := (HopPool.stepAt env.mode shard p i).threads ++ [HopCall.thread env c] } := by
  have h1 : ({ p with threads := p.threads ++ [HopCall.thread env c] } : HopPool).sessionFree = p.sessionFree := by
    funext id
    simp only [HopPool.sessionFree, List.all_append, List.all_cons, List.all_nil, Bool.and_true]
    cases c with
    | session o => cases o <;> simp [HopCall.thread, SessionOp.thread, SessionThread.holds]
    | _ => simp [HopCall.thread]
  have h2 : ({ p with threads := p.threads ++ [HopCall.thread env c] } : HopPool).pubsubFree shard = p.pubsubFree shard := by
    funext id
    simp only [HopPool.pubsubFree, List.all_append, List.all_cons, List.all_nil, Bool.and_true]
    cases c with
    | pubsub o =>
      cases o with
      | op o => cases o <;> simp [HopCall.thread, SubCall.thread, SubThread.holds]
      | get k s => simp [HopCall.thread, SubCall.thread, SubThread.holds]
    | _ => simp [HopCall.thread]
  unfold HopPool.stepAt
  rw [h1, h2]
  simp only [List.getElem?_append_left hi]
  rw [List.getElem?_eq_getElem hi]
  simp only [List.set_append_left _ _ hi]

theorem HopPool.stepAt_length (mode : Mode) (shard : UInt32 → Nat) (p : HopPool) (i : Nat) :
    (p.stepAt mode shard i).threads.length = p.threads.length := by
  unfold HopPool.stepAt
  split
  · rfl
  · simp

theorem HopPool.exec_length (mode : Mode) (shard : UInt32 → Nat) (p : HopPool) (s : List Nat) :
    (p.exec mode shard s).threads.length = p.threads.length := by
  induction s using snoc_induction with
  | h0 => rfl
  | h1 s i ih => rw [HopPool.exec_snoc, HopPool.stepAt_length, ih]

theorem hopPool_more (env : Env) (shard : UInt32 → Nat) (calls : List HopCall) (c : HopCall) (h : HopEngine) (s : List Nat)
    (hs : ∀ i ∈ s, i < calls.length) :
    (hopPool env (calls ++ [c]) h).exec env.mode shard s =
      { (hopPool env calls h).exec env.mode shard s with
        threads := ((hopPool env calls h).exec env.mode shard s).threads ++ [HopCall.thread env c] } := by
  induction s using snoc_induction with
  | h0 => simp [HopPool.exec, hopPool]
  | h1 s i ih =>
    rw [HopPool.exec_snoc, HopPool.exec_snoc, ih fun j hj => hs j (by simp [hj])]
    refine HopPool.stepAt_more env shard _ c i ?_
    rw [HopPool.exec_length]
    simpa [hopPool] using hs i (by simp)

/-! ## C150 -/

/-- The calls `owned` (with the users who make them), each made by a thread of its own, have got as far as the
users have, taking steps in the order `steps`. -/
structure Told (env : Env) (shard : UInt32 → Nat) (us : List User) (h : HopEngine) (p : UserPool)
    (owned : List (Nat × HopCall)) (steps : List Nat) : Prop where
  users : p.users.map UserState.user = us
  owners : ∀ e ∈ owned, e.1 < us.length
  within : ∀ i ∈ steps, i < owned.length
  engine : p.engine = ((hopPool env (owned.map Prod.snd) h).exec env.mode shard steps).engine
  made : ∀ (i : Nat) u, p.users[i]? = some u → u.made = chosen i ((owned.map Prod.fst).zip
    ((owned.map Prod.snd).zip ((hopPool env (owned.map Prod.snd) h).exec env.mode shard steps).threads))
  ended : ∀ u ∈ p.users, ∀ m ∈ u.past, HopEnded m.2 = true
  chose : ∀ (i : Nat) u, p.users[i]? = some u → ∀ (k : Nat) m, u.made[k]? = some m → u.user (u.made.take k) = some m.1
  order : steps.Pairwise fun a b => (owned.map Prod.fst)[a]? = (owned.map Prod.fst)[b]? → a ≤ b

theorem ended_holds {t : HopThread} (h : HopEnded t = true) :
    (∀ s, t = .session s → s.holds = none) ∧ ∀ s, t = .pubsub s → s.holds = none := by
  refine ⟨?_, ?_⟩
  · rintro s rfl
    cases s <;> first | rfl | cases h
  · rintro s rfl
    cases s <;> first | rfl | cases h

/-- Locks are held by the same threads. -/
theorem Told.threads {env : Env} {shard : UInt32 → Nat} {us : List User} {h : HopEngine} {p : UserPool}
    {owned : List (Nat × HopCall)} {steps : List Nat} (ok : Told env shard us h p owned steps) (f : HopThread → Bool)
    (hf : ∀ t, HopEnded t = true → f t = true) :
    ((hopPool env (owned.map Prod.snd) h).exec env.mode shard steps).threads.all f = p.atWork.threads.all f := by
  have hlen : ((hopPool env (owned.map Prod.snd) h).exec env.mode shard steps).threads.length = owned.length := by
    rw [HopPool.exec_length]; simp [hopPool]
  have hul : p.users.length = us.length := by rw [← ok.users, List.length_map]
  have hm := ok.made
  generalize ((hopPool env (owned.map Prod.snd) h).exec env.mode shard steps).threads = ts at hm hlen
  rw [Bool.eq_iff_iff, List.all_eq_true, List.all_eq_true]
  constructor
  · intro hall t ht
    simp only [UserPool.atWork, List.mem_filterMap, Option.map_eq_some_iff] at ht
    obtain ⟨u, hu, m, hum, rfl⟩ := ht
    obtain ⟨i, hi⟩ := List.getElem?_of_mem hu
    have : m ∈ u.made := by simp [UserState.made, hum]
    rw [hm i u hi] at this
    simp only [chosen, List.mem_filterMap] at this
    obtain ⟨⟨j, c, t⟩, he, heq⟩ := this
    split at heq
    · simp only [Option.some.injEq] at heq
      subst heq
      exact hall t (List.of_mem_zip (List.of_mem_zip he).2).2
    · cases heq
  · intro hall t ht
    obtain ⟨j, hj⟩ := List.getElem?_of_mem ht
    have hjl : j < owned.length := by
      rw [← hlen]; exact (List.getElem?_eq_some_iff.mp hj).1
    have howner := ok.owners _ (List.getElem_mem hjl)
    have hi : owned[j].1 < p.users.length := by rw [hul]; exact howner
    have hget := List.getElem?_eq_getElem hi
    have hmem : (owned[j].2, t) ∈ (p.users[owned[j].1]).made := by
      rw [hm _ _ hget]
      simp only [chosen, List.mem_filterMap]
      refine ⟨(owned[j].1, owned[j].2, t), ?_, by simp⟩
      refine List.mem_of_getElem? (i := j) ?_
      rw [List.getElem?_zip_eq_some, List.getElem?_zip_eq_some]
      refine ⟨?_, ?_, hj⟩ <;> simp [List.getElem?_eq_getElem hjl]
    simp only [UserState.made, List.mem_append, Option.mem_toList] at hmem
    rcases hmem with hp | hn
    · exact hf t (ok.ended _ (List.getElem_mem hi) _ hp)
    · refine hall t ?_
      simp only [UserPool.atWork, List.mem_filterMap, Option.map_eq_some_iff]
      exact ⟨_, List.getElem_mem hi, _, hn, rfl⟩

theorem Told.free {env : Env} {shard : UInt32 → Nat} {us : List User} {h : HopEngine} {p : UserPool}
    {owned : List (Nat × HopCall)} {steps : List Nat} (ok : Told env shard us h p owned steps) :
    ((hopPool env (owned.map Prod.snd) h).exec env.mode shard steps).sessionFree = p.atWork.sessionFree ∧
    ((hopPool env (owned.map Prod.snd) h).exec env.mode shard steps).pubsubFree shard = p.atWork.pubsubFree shard := by
  constructor
  · funext id
    refine ok.threads _ fun t ht => ?_
    have := (ended_holds ht).1
    cases t with
    | session s => simp [this s rfl]
    | _ => rfl
  · funext id
    refine ok.threads _ fun t ht => ?_
    have := (ended_holds ht).2
    cases t with
    | pubsub s => simp [this s rfl]
    | _ => rfl

theorem chosen_set_ne {α} {i j : Nat} (h : i ≠ j) (l1 l2 : List (Nat × α)) (a b : α) :
    chosen j (l1 ++ (i, a) :: l2) = chosen j (l1 ++ (i, b) :: l2) := by
  simp [chosen, h]

theorem Told.step {env : Env} {shard : UInt32 → Nat} {us : List User} {h : HopEngine} {p : UserPool}
    {owned : List (Nat × HopCall)} {steps : List Nat} (ok : Told env shard us h p owned steps) (i : Nat) :
    ∃ owned' steps', Told env shard us h (p.stepAt env shard i) owned' steps' := by
  unfold UserPool.stepAt
  cases hu : p.users[i]? with
  | none => exact ⟨owned, steps, ok⟩
  | some u =>
    have hil : i < p.users.length := (List.getElem?_eq_some_iff.mp hu).1
    dsimp only
    cases hn : u.now with
    | none =>
      dsimp only
      cases hc : u.user u.past with
      | none => exact ⟨owned, steps, ok⟩
      | some c =>
        dsimp only
        refine ⟨owned ++ [(i, c)], steps, ?_⟩
        have hmore : (hopPool env ((owned ++ [(i, c)]).map Prod.snd) h).exec env.mode shard steps =
            { (hopPool env (owned.map Prod.snd) h).exec env.mode shard steps with
              threads := ((hopPool env (owned.map Prod.snd) h).exec env.mode shard steps).threads ++ [HopCall.thread env c] } := by
          rw [List.map_append]
          exact hopPool_more env shard (owned.map Prod.snd) c h steps (by simpa using ok.within)
        have hlen : ((hopPool env (owned.map Prod.snd) h).exec env.mode shard steps).threads.length = owned.length := by
          rw [HopPool.exec_length]; simp [hopPool]
        have hmade : ∀ (j : Nat) v, (p.users.set i { u with now := some (c, HopCall.thread env c) })[j]? = some v →
            (j ≠ i ∧ p.users[j]? = some v) ∨ (j = i ∧ v = { u with now := some (c, HopCall.thread env c) }) := by
          intro j v hv
          rw [List.getElem?_set] at hv
          by_cases hj : i = j
          · subst hj
            simp only [if_true, hil, Option.some.injEq] at hv
            exact Or.inr ⟨rfl, hv.symm⟩
          · rw [if_neg hj] at hv
            exact Or.inl ⟨Ne.symm hj, hv⟩
        have hum : u.made = u.past := by simp [UserState.made, hn]
        refine { users := ?_, owners := ?_, within := ?_, engine := ?_, made := ?_, ended := ?_, chose := ?_, order := ?_ }
        · show (p.users.set i _).map UserState.user = us
          exact (map_set_same UserState.user p.users i u { u with now := some (c, HopCall.thread env c) } hu rfl).trans ok.users
        · intro e he
          rcases List.mem_append.mp he with he | he
          · exact ok.owners e he
          · simp only [List.mem_singleton] at he
            subst he
            rw [← ok.users, List.length_map]
            exact hil
        · intro j hj
          have := ok.within j hj
          simp only [List.length_append, List.length_singleton]
          omega
        · rw [hmore]
          exact ok.engine
        · intro j v hv
          rw [hmore]
          simp only [List.map_append, List.map_cons, List.map_nil]
          rw [List.zip_append (by rw [List.length_map, hlen]), List.zip_append (by simp [hlen])]
          simp only [List.zip_cons_cons, List.zip_nil_right, chosen_append, chosen_one]
          rcases hmade j v hv with ⟨hj, hv⟩ | ⟨rfl, rfl⟩
          · rw [← ok.made j v hv, if_neg (Ne.symm hj), List.append_nil]
          · rw [← ok.made j u hu, if_pos rfl, hum]
            rfl
        · intro v hv m hm
          obtain ⟨j, hj⟩ := List.getElem?_of_mem hv
          rcases hmade j v hj with ⟨-, hv⟩ | ⟨rfl, rfl⟩
          · exact ok.ended v (List.mem_of_getElem? hv) m hm
          · exact ok.ended u (List.mem_of_getElem? hu) m hm
        · intro j v hv k m hm
          rcases hmade j v hv with ⟨-, hv⟩ | ⟨rfl, rfl⟩
          · exact ok.chose j v hv k m hm
          · have he : ({ u with now := some (c, HopCall.thread env c) } : UserState).made = u.past ++ [(c, HopCall.thread env c)] := rfl
            rw [he] at hm ⊢
            dsimp only
            by_cases hk : k < u.past.length
            · rw [List.getElem?_append_left hk] at hm
              rw [List.take_append_of_le_length (by omega)]
              have := ok.chose j u hu k m (by rw [hum]; exact hm)
              rwa [hum] at this
            · rw [List.getElem?_append_right (by omega)] at hm
              have hk0 : k - u.past.length = 0 := by
                have := (List.getElem?_eq_some_iff.mp hm).1
                simpa using this
              rw [hk0] at hm
              simp only [List.getElem?_cons_zero, Option.some.injEq] at hm
              subst hm
              have : k = u.past.length := by omega
              rw [this, List.take_left]
              exact hc
        · refine ok.order.imp_of_mem fun {a b} ha hb hab e => hab ?_
          have hal := ok.within a ha
          have hbl := ok.within b hb
          rw [List.map_append, List.getElem?_append_left (by simpa using hal), List.getElem?_append_left (by simpa using hbl)] at e
          exact e
    | some ct =>
      obtain ⟨c, t⟩ := ct
      dsimp only
      have hmi := ok.made i u hu
      have hum : u.made = u.past ++ [(c, t)] := by simp [UserState.made, hn]
      rw [hum] at hmi
      obtain ⟨l1, l2, hl, hl1, hl2⟩ := chosen_last i _ _ _ hmi.symm
      have hfree := ok.free
      have hsnoc := HopPool.exec_snoc env.mode shard (hopPool env (owned.map Prod.snd) h) steps l1.length
      have hlen : ((hopPool env (owned.map Prod.snd) h).exec env.mode shard steps).threads.length = owned.length := by
        rw [HopPool.exec_length]; simp [hopPool]
      have hen := ok.engine
      have hmade := ok.made
      refine ⟨owned, steps ++ [l1.length], ?_⟩
      obtain ⟨g1, g2, g3⟩ := zip_append_cons hl
      have hthread : ((hopPool env (owned.map Prod.snd) h).exec env.mode shard steps).threads[l1.length]? = some t := by
        rw [List.getElem?_zip_eq_some] at g1
        exact g1.2
      have hcall : (owned.map Prod.snd)[l1.length]? = some c := by
        rw [List.getElem?_zip_eq_some] at g1
        exact g1.1
      generalize (hopPool env (owned.map Prod.snd) h).exec env.mode shard steps = q at hmi hl hfree hsnoc hlen hen hmade g1 g2 g3 hthread
      have hq : q.stepAt env.mode shard l1.length =
          { threads := q.threads.set l1.length (t.step env.mode p.atWork.sessionFree (p.atWork.pubsubFree shard) p.engine).1,
            engine := (t.step env.mode p.atWork.sessionFree (p.atWork.pubsubFree shard) p.engine).2 } := by
        unfold HopPool.stepAt
        rw [hthread, hfree.1, hfree.2, hen]
      rw [hq] at hsnoc
      generalize hst : t.step env.mode p.atWork.sessionFree (p.atWork.pubsubFree shard) p.engine = st at hsnoc
      obtain ⟨t', h'⟩ := st
      dsimp only at hsnoc ⊢
      have hu' : ∃ u', u' = (if HopEnded t' then { u with past := u.past ++ [(c, t')], now := none } else { u with now := some (c, t') } : UserState) ∧
          u'.user = u.user ∧ u'.made = u.past ++ [(c, t')] ∧ ∀ m ∈ u'.past, HopEnded m.2 = true := by
        refine ⟨_, rfl, ?_⟩
        by_cases he : HopEnded t' = true
        · rw [if_pos he]
          refine ⟨rfl, by simp [UserState.made], ?_⟩
          intro m hm
          rcases List.mem_append.mp hm with hm | hm
          · exact ok.ended u (List.mem_of_getElem? hu) m hm
          · simp only [List.mem_singleton] at hm
            subst hm
            exact he
        · rw [if_neg he]
          exact ⟨rfl, by simp [UserState.made], fun m hm => ok.ended u (List.mem_of_getElem? hu) m hm⟩
      obtain ⟨u', hue, hu1, hu2, hu3⟩ := hu'
      rw [← hue]
      have hset : ∀ (j : Nat) v, (p.users.set i u')[j]? = some v →
          (j ≠ i ∧ p.users[j]? = some v) ∨ (j = i ∧ v = u') := by
        intro j v hv
        rw [List.getElem?_set] at hv
        by_cases hj : i = j
        · subst hj
          simp only [if_true, hil, Option.some.injEq] at hv
          exact Or.inr ⟨rfl, hv.symm⟩
        · rw [if_neg hj] at hv
          exact Or.inl ⟨Ne.symm hj, hv⟩
      have hzip : (owned.map Prod.fst).zip ((owned.map Prod.snd).zip (q.threads.set l1.length t')) = l1 ++ (i, (c, t')) :: l2 := by
        rw [← g3 (c, t')]
        congr 1
        refine List.ext_getElem? fun k => ?_
        by_cases hk : l1.length = k
        · subst hk
          have hkl : l1.length < ((owned.map Prod.snd).zip q.threads).length := (List.getElem?_eq_some_iff.mp g1).1
          rw [List.getElem?_set_self hkl, List.getElem?_zip_eq_some]
          refine ⟨hcall, ?_⟩
          rw [List.getElem?_set_self (List.getElem?_eq_some_iff.mp hthread).1]
        · rw [List.getElem?_set_ne hk]
          simp only [List.zip, List.getElem?_zipWith, List.getElem?_set_ne hk]
      refine { users := ?_, owners := ok.owners, within := ?_, engine := ?_, made := ?_, ended := ?_, chose := ?_, order := ?_ }
      · show (p.users.set i u').map UserState.user = us
        rw [map_set_same _ _ _ u _ hu hu1]
        exact ok.users
      · intro j hj
        rcases List.mem_append.mp hj with hj | hj
        · exact ok.within j hj
        · simp only [List.mem_singleton] at hj
          subst hj
          have := (List.getElem?_eq_some_iff.mp hcall).1
          simpa using this
      · rw [hsnoc]
      · intro j v hv
        rw [hsnoc]
        dsimp only
        rw [hzip]
        rcases hset j v hv with ⟨hj, hv⟩ | ⟨rfl, rfl⟩
        · rw [hmade j v hv, hl, chosen_set_ne (Ne.symm hj)]
        · rw [hu2, chosen_append, hl1]
          have : chosen j ((j, (c, t')) :: l2) = [(c, t')] := by
            rw [show (j, (c, t')) :: l2 = [(j, (c, t'))] ++ l2 from rfl, chosen_append, chosen_one, if_pos rfl, hl2]
            rfl
          rw [this]
      · intro v hv m hm
        obtain ⟨j, hj⟩ := List.getElem?_of_mem hv
        rcases hset j v hj with ⟨-, hv⟩ | ⟨rfl, rfl⟩
        · exact ok.ended v (List.mem_of_getElem? hv) m hm
        · exact hu3 m hm
      · intro j v hv k m hm
        rcases hset j v hv with ⟨-, hv⟩ | ⟨rfl, rfl⟩
        · exact ok.chose j v hv k m hm
        · rw [hu2] at hm ⊢
          rw [hu1]
          have hch := ok.chose j u hu
          rw [hum] at hch
          have hk : k < (u.past ++ [(c, t')]).length := (List.getElem?_eq_some_iff.mp hm).1
          simp only [List.length_append, List.length_singleton] at hk
          rw [List.take_append_of_le_length (by omega)]
          have htake : ∀ x : Made, (u.past ++ [x]).take k = u.past.take k := fun x => List.take_append_of_le_length (by omega)
          by_cases hkl : k < u.past.length
          · rw [List.getElem?_append_left hkl] at hm
            have := hch k m (by rw [List.getElem?_append_left hkl]; exact hm)
            rwa [htake] at this
          · rw [List.getElem?_append_right (by omega)] at hm
            have hk0 : k - u.past.length = 0 := by omega
            rw [hk0] at hm
            simp only [List.getElem?_cons_zero, Option.some.injEq] at hm
            subst hm
            have := hch k (c, t) (by rw [List.getElem?_append_right (by omega), hk0]; rfl)
            rwa [htake] at this
      · rw [List.pairwise_append]
        refine ⟨ok.order, List.pairwise_singleton _ _, ?_⟩
        intro a ha b hb e
        simp only [List.mem_singleton] at hb
        subst hb
        rw [g2] at e
        by_cases hal : a ≤ l1.length
        · exact hal
        · exfalso
          have hzl : a < ((owned.map Prod.fst).zip ((owned.map Prod.snd).zip q.threads)).length := by
            simp only [List.length_zip, List.length_map, hlen]
            have := ok.within a ha
            omega
          obtain ⟨x, hx⟩ : ∃ x, ((owned.map Prod.fst).zip ((owned.map Prod.snd).zip q.threads))[a]? = some x :=
            ⟨_, List.getElem?_eq_getElem hzl⟩
          have hown : x.1 = i := by
            rw [List.getElem?_zip_eq_some] at hx
            rw [hx.1] at e
            exact Option.some.inj e
          rw [hl, List.getElem?_append_right (by omega)] at hx
          obtain ⟨d, hd⟩ : ∃ d, a - l1.length = d + 1 := ⟨a - l1.length - 1, by omega⟩
          rw [hd, List.getElem?_cons_succ] at hx
          have : chosen i l2 ≠ [] := by
            intro hnil
            simp only [chosen, List.filterMap_eq_nil_iff] at hnil
            have := hnil _ (List.mem_of_getElem? hx)
            rw [if_pos hown] at this
            cases this
          exact this hl2

theorem told_exec (env : Env) (shard : UInt32 → Nat) (us : List User) (h : HopEngine) (sched : List Nat) :
    ∃ owned steps, Told env shard us h ((userPool us h).exec env shard sched) owned steps := by
  induction sched using snoc_induction with
  | h0 =>
    refine ⟨[], [], ?_⟩
    have hmem : ∀ u ∈ (userPool us h).users, u.past = [] ∧ u.now = none := by
      intro u hu
      simp only [userPool, List.mem_map] at hu
      obtain ⟨x, -, rfl⟩ := hu
      exact ⟨rfl, rfl⟩
    have hnone : ∀ u ∈ (userPool us h).users, u.made = [] := fun u hu => by
      simp [UserState.made, (hmem u hu).1, (hmem u hu).2]
    refine { users := ?_, owners := by simp, within := by simp, engine := rfl, made := ?_, ended := ?_, chose := ?_, order := .nil }
    · simp [UserPool.exec, userPool, Function.comp_def]
    · intro i u hu
      rw [hnone u (List.mem_of_getElem? hu)]
      simp [chosen]
    · intro u hu m hm
      rw [(hmem u hu).1] at hm
      cases hm
    · intro i u hu k m hm
      rw [hnone u (List.mem_of_getElem? hu)] at hm
      simp at hm
  | h1 s i ih =>
    obtain ⟨owned, steps, ok⟩ := ih
    rw [show (userPool us h).exec env shard (s ++ [i]) = ((userPool us h).exec env shard s).stepAt env shard i by
      simp [UserPool.exec]]
    exact ok.step i

/-- C150. Users of one engine make calls of all kinds one after the other, each chosen in the light of the answers
so far. At every moment of every execution there are calls, each with the user who makes it, such that if each of
them were made by a thread of its own, these threads could take steps in such an order that the engine is the
same; what every user has been answered, and how far the call under way is, is the same; every call is what the
user chooses after the answers before; and no step is made of a call of a user after a step of a later call of
the same user. -/
theorem C150_threads (env : Env) (shard : UInt32 → Nat) (us : List User) (h : HopEngine) (sched : List Nat) :
    let p := (userPool us h).exec env shard sched
    ∃ (owned : List (Nat × HopCall)) (steps : List Nat),
      let owners := owned.map Prod.fst
      let calls := owned.map Prod.snd
      let q := (hopPool env calls h).exec env.mode shard steps
      p.engine = q.engine ∧ p.users.length = us.length ∧ (∀ i ∈ owners, i < us.length) ∧
      (∀ (i : Nat) u, p.users[i]? = some u → u.made = chosen i (owners.zip (calls.zip q.threads))) ∧
      (∀ (i : Nat) u (user : User), p.users[i]? = some u → us[i]? = some user →
        ∀ (k : Nat) m, u.made[k]? = some m → user (u.made.take k) = some m.1) ∧
      steps.Pairwise fun a b => owners[a]? = owners[b]? → a ≤ b := by
  dsimp only
  obtain ⟨owned, steps, ok⟩ := told_exec env shard us h sched
  refine ⟨owned, steps, ok.engine, ?_, ?_, ok.made, ?_, ok.order⟩
  · have := congrArg List.length ok.users
    simpa using this
  · intro i hi
    obtain ⟨e, he, rfl⟩ := List.mem_map.mp hi
    exact ok.owners e he
  · intro i u user hu hus k m hm
    have : u.user = user := by
      have := congrArg (·[i]?) ok.users
      simp only [List.getElem?_map, hu, hus, Option.map_some, Option.some.injEq] at this
      exact this
    rw [← this]
    exact ok.chose i u hu k m hm

/-! ## C151 -/

theorem chosen_perm {α} (n : Nat) (l : List (Nat × α)) (h : ∀ e ∈ l, e.1 < n) :
    ((List.range n).flatMap fun i => chosen i l).Perm (l.map Prod.snd) := by
  induction l with
  | nil => simp [chosen]
  | cons e l ih =>
    obtain ⟨j, a⟩ := e
    have hj : j < n := h (j, a) (by simp)
    have hc : ∀ i, chosen i ((j, a) :: l) = (if j = i then [a] else []) ++ chosen i l := fun i => by
      rw [← chosen_one i j a, ← chosen_append]
      rfl
    simp only [hc, List.map_cons]
    have key : ∀ (is : List Nat), is.Nodup → j ∈ is →
        (is.flatMap fun i => (if j = i then [a] else []) ++ chosen i l).Perm (a :: is.flatMap fun i => chosen i l) := by
      have none : ∀ (is : List Nat), j ∉ is →
          (is.flatMap fun i => (if j = i then [a] else []) ++ chosen i l) = is.flatMap fun i => chosen i l := by
        intro is
        induction is with
        | nil => intro _; rfl
        | cons x is ihx =>
          intro hx
          simp only [List.mem_cons, not_or] at hx
          simp only [List.flatMap_cons, if_neg hx.1, List.nil_append, ihx hx.2]
      intro is
      induction is with
      | nil => intro _ hx; cases hx
      | cons x is ihx =>
        intro hnd hx
        simp only [List.nodup_cons] at hnd
        simp only [List.flatMap_cons]
        by_cases hxj : j = x
        · subst hxj
          rw [if_pos rfl, none is hnd.1]
          exact List.Perm.refl _
        · rw [if_neg hxj, List.nil_append]
          have := ihx hnd.2 (by simpa [hxj] using hx)
          exact (List.Perm.append_left _ this).trans List.perm_middle
    exact (key _ List.nodup_range (List.mem_range.mpr hj)).trans
      (List.Perm.cons a (ih fun e he => h e (by simp [he])))

/-- All calls of all users are those of the threads. -/
theorem Told.perm {env : Env} {shard : UInt32 → Nat} {us : List User} {h : HopEngine} {p : UserPool}
    {owned : List (Nat × HopCall)} {steps : List Nat} (ok : Told env shard us h p owned steps) :
    p.made.Perm ((owned.map Prod.snd).zip ((hopPool env (owned.map Prod.snd) h).exec env.mode shard steps).threads) := by
  have hlen : ((hopPool env (owned.map Prod.snd) h).exec env.mode shard steps).threads.length = owned.length := by
    rw [HopPool.exec_length]; simp [hopPool]
  have hul : p.users.length = us.length := by rw [← ok.users, List.length_map]
  have hm := ok.made
  generalize ((hopPool env (owned.map Prod.snd) h).exec env.mode shard steps).threads = ts at hm hlen
  have he : p.users.map UserState.made =
      (List.range us.length).map fun i => chosen i ((owned.map Prod.fst).zip ((owned.map Prod.snd).zip ts)) := by
    refine List.ext_getElem? fun i => ?_
    rw [List.getElem?_map, List.getElem?_map]
    by_cases hi : i < us.length
    · rw [List.getElem?_range hi]
      have hget := List.getElem?_eq_getElem (l := p.users) (i := i) (by rw [hul]; exact hi)
      rw [hget]
      simp only [Option.map_some]
      rw [hm i _ hget]
    · rw [List.getElem?_eq_none (by rw [hul]; omega), List.getElem?_eq_none (by rw [List.length_range]; omega)]
      rfl
  unfold UserPool.made
  rw [List.flatMap_def, he, ← List.flatMap_def]
  have hz : ((owned.map Prod.fst).zip ((owned.map Prod.snd).zip ts)).map Prod.snd = (owned.map Prod.snd).zip ts :=
    List.map_snd_zip (by simp [hlen])
  have hperm := chosen_perm us.length ((owned.map Prod.fst).zip ((owned.map Prod.snd).zip ts))
  rw [hz] at hperm
  refine hperm fun e he => ?_
  obtain ⟨x, hx, hxe⟩ := List.mem_map.mp (List.of_mem_zip he).1
  rw [← hxe]
  exact ok.owners x hx

theorem countP_zip_snd {α β} (f : β → Bool) (as : List α) (bs : List β) (h : as.length = bs.length) :
    (as.zip bs).countP (fun m => f m.2) = bs.countP f := by
  induction as generalizing bs with
  | nil =>
    cases bs with
    | nil => rfl
    | cons b bs => cases h
  | cons a as ih =>
    cases bs with
    | nil => cases h
    | cons b bs => simp [List.countP_cons, ih bs (by simpa using h)]

/-- C151. The counters, for users who make calls of all kinds one after the other: at every moment the numbers of
successful and failed commands and of started sessions are the initial ones plus the numbers of calls answered
so or started. -/
theorem C151_statistics (env : Env) (shard : UInt32 → Nat) (us : List User) (h : HopEngine) (sched : List Nat)
    (hc : Roomy ((userPool us h).exec env shard sched).made.length h.db.ctrs) :
    let p := (userPool us h).exec env shard sched
    (p.engine.readMetric .commandsSuccessful).getD 0 =
      (h.readMetric .commandsSuccessful).getD 0 + p.made.countP (fun m => hopSucceeded m.2) ∧
    (p.engine.readMetric .commandsErrored).getD 0 =
      (h.readMetric .commandsErrored).getD 0 + p.made.countP (fun m => hopFailed m.2) ∧
    (p.engine.readMetric .sessionsStarted).getD 0 =
      (h.readMetric .sessionsStarted).getD 0 + p.made.countP (fun m => hopStarted m.2) ∧
    p.engine.readMetric .sessionsEnded = h.readMetric .sessionsEnded := by
  dsimp only
  obtain ⟨owned, steps, ok⟩ := told_exec env shard us h sched
  have hp := ok.perm
  have hlen : ((hopPool env (owned.map Prod.snd) h).exec env.mode shard steps).threads.length = owned.length := by
    rw [HopPool.exec_length]; simp [hopPool]
  have hl : ((userPool us h).exec env shard sched).made.length = (owned.map Prod.snd).length := by
    rw [hp.length_eq]
    simp [hlen]
  rw [hl] at hc
  have key := C149_statistics env (owned.map Prod.snd) h hc shard steps
  dsimp only at key
  rw [hp.countP_eq, hp.countP_eq, hp.countP_eq, ok.engine]
  rw [countP_zip_snd hopSucceeded _ _ (by simp [hlen]), countP_zip_snd hopFailed _ _ (by simp [hlen]),
    countP_zip_snd hopStarted _ _ (by simp [hlen])]
  exact key

/-- C151. Subscriptions on a fresh engine, for users who make calls of all kinds one after the other: at every
moment a subscription that `get` would find is open, and belongs to no other session and no other key. -/
theorem C151_open_and_apart (env : Env) (shard : UInt32 → Nat) (us : List User) (b : HopBuilder) (sched : List Nat)
    (k : Bytes) (s : UInt32) (x : Nat)
    (hx : ((userPool us (.build b)).exec env shard sched).engine.pubsub.get k s = some x) :
    x ∉ ((userPool us (.build b)).exec env shard sched).engine.pubsub.closed ∧
    ∀ k' s', ((userPool us (.build b)).exec env shard sched).engine.pubsub.get k' s' = some x → k' = k ∧ s' = s := by
  obtain ⟨owned, steps, ok⟩ := told_exec env shard us (.build b) sched
  have hps := (C148_pubsub env (owned.map Prod.snd) (.build b) shard steps).2
  rw [ok.engine, hps] at hx ⊢
  exact C96_open_and_apart (pubsubCalls (owned.map Prod.snd)) shard _ k s x hx

/-- A subscription to key `k` that was granted. -/
def Spec.granted (k : Bytes) : Made → Bool
  | (.pubsub (.op (.subscribe k' _)), .pubsub (.subscribed (some _))) => k' == k
  | _ => false

/-- The calls of the publish/subscribe manager with how far they are. -/
def pubsubMade : Made → Option (SubCall × SubThread)
  | (.pubsub c, .pubsub t) => some (c, t)
  | _ => none

def grantedSub (k : Bytes) : SubCall × SubThread → Bool
  | (.op (.subscribe k' _), .subscribed (some _)) => k' == k
  | _ => false

theorem granted_pubsub (k : Bytes) (l : List Made) : l.countP (granted k) = (l.filterMap pubsubMade).countP (grantedSub k) := by
  induction l with
  | nil => rfl
  | cons m l ih =>
    obtain ⟨c, t⟩ := m
    rw [List.countP_cons, ih]
    have : (granted k (c, t)) = ((pubsubMade (c, t)).map (grantedSub k)).getD false := by
      cases c with
      | pubsub c =>
        cases t with
        | pubsub t =>
          cases c with
          | op o =>
            cases o with
            | subscribe k' s =>
              cases t with
              | subscribed a => cases a <;> rfl
              | _ => rfl
            | _ => rfl
          | get k s => rfl
        | _ =>
          cases c with
          | op o => cases o <;> rfl
          | get k s => rfl
      | _ => rfl
    rw [this, List.filterMap_cons]
    cases pubsubMade (c, t) with
    | none => simp
    | some x => simp [List.countP_cons]

theorem pubsubMade_zip (calls : List HopCall) (ts : List HopThread) (h : KindsOf calls ts) :
    (calls.zip ts).filterMap pubsubMade = (pubsubCalls calls).zip (pubsubThreads ts) := by
  unfold KindsOf at h
  induction calls generalizing ts with
  | nil => rfl
  | cons c calls ih =>
    cases ts with
    | nil => cases h
    | cons t ts =>
      simp only [List.map_cons, List.cons.injEq] at h
      have := ih ts h.2
      have h1 := h.1
      unfold pubsubCalls pubsubThreads at this ⊢
      cases c <;> cases t <;> first
        | (simp only [List.zip_cons_cons, List.filterMap_cons, pubsubMade, pubsubOf]; first | exact this | (rw [this]; done))
        | (cases h1; done)

theorem countP_le_one {α} (f : α → Bool) (l : List α)
    (h : ∀ (i j : Nat) a b, l[i]? = some a → l[j]? = some b → f a = true → f b = true → i = j) : l.countP f ≤ 1 := by
  induction l with
  | nil => simp
  | cons a l ih =>
    rw [List.countP_cons]
    by_cases ha : f a = true
    · have : l.countP f = 0 := by
        refine List.countP_eq_zero.mpr fun b hb hfb => ?_
        obtain ⟨j, hj⟩ := List.getElem?_of_mem hb
        have := h 0 (j + 1) a b rfl (by simpa using hj) ha hfb
        cases this
      rw [this]
      split <;> omega
    · rw [if_neg ha]
      exact ih fun i j a b hi hj fa fb => by
        have := h (i + 1) (j + 1) a b (by simpa using hi) (by simpa using hj) fa fb
        omega

/-- C151. On a fresh engine, of all subscriptions to one key ever asked for by users who make calls of all kinds one
after the other, at most one is granted. -/
theorem C151_one_subscriber (env : Env) (shard : UInt32 → Nat) (us : List User) (b : HopBuilder) (sched : List Nat)
    (k : Bytes) : ((userPool us (.build b)).exec env shard sched).made.countP (granted k) ≤ 1 := by
  obtain ⟨owned, steps, ok⟩ := told_exec env shard us (.build b) sched
  rw [ok.perm.countP_eq, granted_pubsub,
    pubsubMade_zip _ _ (kindsOf_exec env env.mode (owned.map Prod.snd) (.build b) shard steps),
    (C148_pubsub env (owned.map Prod.snd) (.build b) shard steps).1]
  have h94 := (C94_one_subscriber (pubsubCalls (owned.map Prod.snd)) shard
    (turnsOf .pubsub (owned.map Prod.snd) steps) k).1
  refine countP_le_one _ _ fun i j x y hi hj fx fy => ?_
  rw [List.getElem?_zip_eq_some] at hi hj
  have hg : ∀ x : SubCall × SubThread, grantedSub k x = true → ∃ s a, x = (.op (.subscribe k s), .subscribed (some a)) := by
    rintro ⟨c, t⟩ hx
    unfold grantedSub at hx
    split at hx
    · rename_i heq
      cases heq
      exact ⟨_, _, by rw [eq_of_beq hx]⟩
    · cases hx
  obtain ⟨s, a, rfl⟩ := hg x fx
  obtain ⟨s', a', rfl⟩ := hg y fy
  exact h94 i j s s' a a' hi.1 hj.1 hi.2 hj.2

/-- A call that was answered with a session stored under `id`. -/
def Spec.startedUnder (id : UInt32) : Made → Bool
  | (_, .session (.added k _)) => k == id
  | _ => false

def addedUnder (id : UInt32) : SessionThread → Bool
  | .added k _ => k == id
  | _ => false

theorem startedUnder_sessions (id : UInt32) (calls : List HopCall) (ts : List HopThread) (h : calls.length = ts.length) :
    (calls.zip ts).countP (startedUnder id) = (sessionThreads ts).countP (addedUnder id) := by
  unfold sessionThreads
  induction calls generalizing ts with
  | nil =>
    cases ts with
    | nil => rfl
    | cons t ts => cases h
  | cons c calls ih =>
    cases ts with
    | nil => cases h
    | cons t ts =>
      rw [List.zip_cons_cons, List.countP_cons, ih ts (by simpa using h), List.filterMap_cons]
      cases t with
      | session t =>
        simp only [sessionOf, List.countP_cons]
        congr 1
        cases t <;> rfl
      | _ => simp [sessionOf, startedUnder]

/-- C151. On a fresh engine, as long as no user has removed a session, every session that a user has been given is
stored under the identifier it was given with, and no two calls have been given the same identifier. -/
theorem C151_sessions_apart (env : Env) (shard : UInt32 → Nat) (us : List User) (b : HopBuilder) (sched : List Nat)
    (hno : ∀ m ∈ ((userPool us (.build b)).exec env shard sched).made, ∀ id, m.1 ≠ .session (.remove id)) :
    (∀ c k s, (c, .session (.added k s)) ∈ ((userPool us (.build b)).exec env shard sched).made →
      ((userPool us (.build b)).exec env shard sched).engine.sessions k = some s) ∧
    ∀ id, ((userPool us (.build b)).exec env shard sched).made.countP (startedUnder id) ≤ 1 := by
  obtain ⟨owned, steps, ok⟩ := told_exec env shard us (.build b) sched
  have hlen : ((hopPool env (owned.map Prod.snd) (.build b)).exec env.mode shard steps).threads.length = owned.length := by
    rw [HopPool.exec_length]; simp [hopPool]
  have hp := ok.perm
  obtain ⟨h1, -, h3, -⟩ := C148_sessions env (owned.map Prod.snd) (.build b) shard steps
  have hadd : ∀ t ∈ (sessionCalls (owned.map Prod.snd)).map SessionOp.thread, Adding t := by
    intro t ht
    obtain ⟨o, ho, rfl⟩ := List.mem_map.mp ht
    cases o with
    | add tok => trivial
    | remove id =>
      exfalso
      unfold sessionCalls at ho
      obtain ⟨c, hc, hco⟩ := List.mem_filterMap.mp ho
      obtain ⟨j, hj⟩ := List.getElem?_of_mem hc
      have hjl : j < ((hopPool env (owned.map Prod.snd) (.build b)).exec env.mode shard steps).threads.length := by
        have := (List.getElem?_eq_some_iff.mp hj).1
        rw [hlen]
        simpa using this
      have hmem : (c, ((hopPool env (owned.map Prod.snd) (.build b)).exec env.mode shard steps).threads[j]) ∈
          ((userPool us (.build b)).exec env shard sched).made := by
        rw [hp.mem_iff]
        refine List.mem_of_getElem? (i := j) ?_
        rw [List.getElem?_zip_eq_some]
        exact ⟨hj, List.getElem?_eq_getElem hjl⟩
      cases c with
      | session o =>
        cases hco
        exact hno _ hmem id rfl
      | _ => cases hco
  obtain ⟨g1, g2⟩ := C61_distinct_partial env.mode _ hadd
    ((sessionsAlone (owned.map Prod.snd) (.build b)).exec env.mode (turnsOf .session (owned.map Prod.snd) steps))
    ⟨_, rfl⟩
  rw [← h1, ← h3] at g1
  rw [← h1] at g2
  rw [ok.engine]
  refine ⟨fun c k s hm => g1 k s ?_, fun id => ?_⟩
  · rw [hp.mem_iff] at hm
    exact List.mem_filterMap.mpr ⟨_, (List.of_mem_zip hm).2, rfl⟩
  · rw [hp.countP_eq, startedUnder_sessions id _ _ (by simp [hlen])]
    refine countP_le_one _ _ fun i j x y hi hj fx fy => ?_
    have hg : ∀ x, addedUnder id x = true → ∃ s, x = .added id s := by
      intro x hx
      cases x with
      | added k s => exact ⟨s, by rw [eq_of_beq hx]⟩
      | _ => cases hx
    obtain ⟨s, rfl⟩ := hg x fx
    obtain ⟨s', rfl⟩ := hg y fy
    by_cases hij : i = j
    · exact hij
    · exact (g2 i j id s s' hij hi hj).elim

/-- A user who starts a session, subscribes with the identifier it is given, and then counts. -/
def subscriber (k : Bytes) : User := fun past =>
  match past with
  | [] => some (.session (.add [1]))
  | [(_, .session (.added id _))] => some (.pubsub (.op (.subscribe k id)))
  | [_, (_, .pubsub (.subscribed (some _)))] => some (.dispatch (call .increment none [[107]]) [])
  | _ => none

/-- Beside C150 and C151: of two such users, one after the other allowed to start a session, only one is granted the
subscription and goes on to count; a third user reads the number of sessions twice in between. -/
def threeUsers : List User := [subscriber [9], subscriber [9], User.fixed [.metric .sessionsStarted, .metric .sessionsStarted]]
def threeSched : List Nat :=
  [0, 2, 0, 2, 0, 0, 0, 0, 0, 1, 1, 0, 1, 1, 1, 1, 1, 0, 2, 1, 1, 2, 0, 1, 0, 1, 0, 0, 0, 0]

example : ((userPool threeUsers .new).exec (sampleEnv .debug) (fun s => s.toNat) threeSched).made.length = 7 ∧
    Roomy 7 HopEngine.new.db.ctrs ∧
    ((userPool threeUsers .new).exec (sampleEnv .debug) (fun s => s.toNat) threeSched).made.countP (granted [9]) = 1 ∧
    ((userPool threeUsers .new).exec (sampleEnv .debug) (fun s => s.toNat) threeSched).made.countP
      (fun m => hopSucceeded m.2) = 1 ∧
    ((userPool threeUsers .new).exec (sampleEnv .debug) (fun s => s.toNat) threeSched).made.countP
      (fun m => hopStarted m.2) = 2 ∧
    ((userPool threeUsers .new).exec (sampleEnv .debug) (fun s => s.toNat) threeSched).engine.pubsub.get [9] 0 = some 0 := by
  refine ⟨by decide, fun m => by cases m <;> decide, by decide, by decide, by decide, by decide⟩

end Hop
