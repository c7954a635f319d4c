import Verif.Props.Amqp
/-! # C50 and C65, continued: what has been declared lasts; which errors close a connection -/
namespace Paladin
namespace Amqp

variable {N B V : Type} [DecidableEq N] {dec : B → Option V} {prefetch : Nat} {s s' : St N B} {ls : List (Label N B)}

/-- The queue with number `i` is there and has the name. -/
def There (s : St N B) (name : N) (i : Nat) : Prop := ∃ q, s.queues[i]? = some q ∧ q.present = true ∧ q.name = name

theorem there_set {name : N} {i k : Nat} {q q' : Queue N} {qs : List (Queue N)} (hk : qs[k]? = some q) (hn : q'.name = q.name) (hp : q'.present = q.present)
    (h : ∃ q, qs[i]? = some q ∧ q.present = true ∧ q.name = name) : ∃ q, (qs.set k q')[i]? = some q ∧ q.present = true ∧ q.name = name := by
  obtain ⟨p, h1, h2, h3⟩ := h
  have hlt : k < qs.length := (List.getElem?_eq_some_iff.1 hk).1
  by_cases e : k = i
  · subst e
    rw [hk] at h1; cases h1
    exact ⟨q', by simp [hlt], hp.trans h2, hn.trans h3⟩
  · exact ⟨p, by simp [e, h1], h2, h3⟩

/-- What `name` is routed to: of the queue, of the exchange, of the binding. -/
structure Keeps (name : N) (i : Nat) (s s' : St N B) : Prop where
  queue : There s name i → There s' name i
  exchange : (s.exchanges.lookup name).isSome → (s'.exchanges.lookup name).isSome
  binding : There s name i → (name, i) ∈ s.bindings → (name, i) ∈ s'.bindings

theorem lookup_append {l : List (N × Args)} {x : N} {e : N × Args} (h : (l.lookup x).isSome) : ((l ++ [e]).lookup x).isSome := by
  induction l with
  | nil => simp at h
  | cons y l ih =>
    rw [List.lookup_cons] at h
    rw [List.cons_append, List.lookup_cons]
    split at h
    · rfl
    · exact ih h

theorem lookup_filter {l : List (N × Args)} {x y : N} (hxy : x ≠ y) (h : (l.lookup x).isSome) : ((l.filter fun e => decide (e.1 ≠ y)).lookup x).isSome := by
  induction l with
  | nil => simp at h
  | cons z l ih =>
    rw [List.lookup_cons] at h
    rw [List.filter_cons]
    split at h
    · rename_i hz
      have : x = z.1 := by simpa using hz
      subst this
      rw [if_pos (by simpa using hxy), List.lookup_cons, hz]; rfl
    · split
      · rw [List.lookup_cons]
        split
        · rfl
        · exact ih h
      · exact ih h

theorem keeps_remove {name : N} {i k : Nat} {q : Queue N} (hki : k ≠ i) : Keeps name i s (remove s k q) := by
  refine ⟨fun ⟨p, h1, h2, h3⟩ => ⟨p, by simp [remove, hki, h1], h2, h3⟩, fun h => h, fun _ h => ?_⟩
  simp [remove, h, Ne.symm hki]

theorem keeps_method {name : N} {i : Nat} (conn : Nat) (m : Method N B) (h1 : m ≠ .queueDelete name) (h2 : m ≠ .exchangeDelete name) : Keeps name i s (method s conn m).1 := by
  have same : Keeps name i s s := ⟨fun h => h, fun h => h, fun _ h => h⟩
  cases m with
  | exchangeDeclare x a =>
    simp only [method]
    split
    · exact same
    · exact ⟨fun h => h, lookup_append, fun _ h => h⟩
  | queueDeclare q a =>
    simp only [method]
    split
    · exact same
    · refine ⟨fun ⟨p, h1, h2, h3⟩ => ⟨p, ?_, h2, h3⟩, fun h => h, fun _ h => h⟩
      show (s.queues ++ _)[i]? = _
      rw [List.getElem?_append_left (List.getElem?_eq_some_iff.1 h1).1, h1]
  | queueBind q x =>
    simp only [method]
    split
    · refine ⟨fun h => h, fun h => h, fun _ h => ?_⟩
      dsimp only
      split
      · exact h
      · exact List.mem_append_left _ h
    · exact same
  | queueDelete q =>
    simp only [method]
    split
    · rename_i k hf
      split
      · rename_i c hc
        by_cases e : k = i
        · subst e
          obtain ⟨p, hp1, hp2, hp3⟩ := find_some hf
          have hno : ¬ There s name k := by
            rintro ⟨p', h3, _, h5⟩
            rw [hp1] at h3; cases h3
            exact h1 (by rw [← hp3, h5])
          exact ⟨fun h => absurd h hno, fun h => h, fun h => absurd h hno⟩
        · exact keeps_remove e
      · exact same
    · exact same
  | exchangeDelete x =>
    have hx : name ≠ x := fun e => h2 (by rw [e])
    exact ⟨fun h => h, lookup_filter hx, fun _ h => by simpa [method, hx] using h⟩
  | publish d b mode =>
    cases d with
    | queue x =>
      simp only [method]
      split
      · rename_i k hf
        obtain ⟨p, hp1, -⟩ := find_some hf
        refine ⟨fun h => ?_, fun h => h, fun _ h => h⟩
        unfold There
        dsimp only
        rw [modify_eq_set hp1]
        exact there_set hp1 rfl rfl h
      · exact ⟨fun h => h, fun h => h, fun _ h => h⟩
    | fanout x =>
      simp only [method]
      split
      · split
        · refine ⟨fun ⟨p, h1, h2, h3⟩ => ?_, fun h => h, fun _ h => h⟩
          unfold There
          dsimp only
          rw [List.getElem?_mapIdx, h1]
          refine ⟨_, rfl, ?_, ?_⟩
          · dsimp only; split <;> exact h2
          · dsimp only; split <;> exact h3
        · exact ⟨fun h => h, fun h => h, fun _ h => h⟩
      · exact ⟨fun h => h, fun h => h, fun _ h => h⟩
  | consume q => simp only [method]; split <;> exact ⟨fun h => h, fun h => h, fun _ h => h⟩

theorem keeps_step {name : N} {i : Nat} {l : Label N B} (hs : step dec prefetch s l = some s') (he : l ≠ .expire i)
    (hc : ∀ r ∈ s.calls, r.result = none → r.conn ∉ s.closed → Method.queueDelete name ∉ r.rest ∧ Method.exchangeDelete name ∉ r.rest) : Keeps name i s s' := by
  cases l with
  | exec k =>
    simp only [step] at hs
    split at hs
    · cases hs
    · rename_i r hr
      split at hs
      · cases hs
      · rename_i hres
        split at hs
        · simp only [Option.some.injEq] at hs; subst hs; exact ⟨fun h => h, fun h => h, fun _ h => h⟩
        · rename_i hcl
          split at hs
          · simp only [Option.some.injEq] at hs; subst hs; exact ⟨fun h => h, fun h => h, fun _ h => h⟩
          · rename_i m rest hm
            obtain ⟨c1, c2⟩ := hc r (List.mem_of_getElem? hr) (by simpa using hres) (by simpa using hcl)
            rw [hm] at c1 c2
            have k := keeps_method (s := s) (name := name) (i := i) r.conn m (fun e => c1 (by simp [e])) (fun e => c2 (by simp [e]))
            split at hs <;> simp only [Option.some.injEq] at hs <;> subst hs <;> exact ⟨k.queue, k.exchange, k.binding⟩
  | expire k =>
    simp only [step] at hs
    split at hs
    · cases hs
    · split at hs <;> simp only [Option.some.injEq, reduceCtorEq] at hs
      subst hs
      exact keeps_remove fun e => he (by rw [e])
  | _ =>
    simp only [step] at hs
    (repeat' split at hs) <;> simp only [Option.some.injEq, reduceCtorEq] at hs <;> subst hs
    all_goals refine ⟨?_, fun h => h, fun _ h => h⟩
    all_goals first
      | exact fun h => h
      | exact there_set (q := ‹Queue N›) ‹s.queues[_]? = some _› rfl rfl

/-- **C50, lasting.** What a name is routed to stays, whatever happens to other names and to connections, until the name is released or the queue expires. -/
theorem C50_lasts {ls' : List (Label N B)} (h : run dec prefetch init ls = some s) {mode : Syndication} {name : N} {i : Nat} (hr : routes s mode name i) (h' : run dec prefetch s ls' = some s')
    (hd : ∀ conn, .begin conn (.deleteQueue name) ∉ ls ++ ls') (he : .expire i ∉ ls') : routes s' mode name i := by
  have hcalls : ∀ (ls : List (Label N B)) (s : St N B), run dec prefetch init ls = some s → (∀ conn, .begin conn (.deleteQueue name) ∉ ls) →
      ∀ r ∈ s.calls, Method.queueDelete name ∉ r.rest ∧ Method.exchangeDelete name ∉ r.rest := by
    intro ls s h hd
    refine Lts.run_induction (P := fun (ls : List (Label N B)) (s : St N B) => (∀ conn, .begin conn (.deleteQueue name) ∉ ls) →
      ∀ r ∈ s.calls, Method.queueDelete name ∉ r.rest ∧ Method.exchangeDelete name ∉ r.rest) (by simp [init]) ?_ ls s h hd
    intro ls l s s' _ ih hs hd r hr
    have ih := ih fun conn hc => hd conn (List.mem_append_left _ hc)
    cases l with
    | «begin» conn c =>
      simp only [step, Option.some.injEq] at hs; subst hs
      simp only [List.mem_append, List.mem_singleton] at hr
      rcases hr with hr | rfl
      · exact ih r hr
      · have hc : c ≠ .deleteQueue name := fun e => hd conn (by simp [e])
        cases c with
        | declareQueue n o => cases hm : o.mode <;> simp [Call.methods, declareQueue, declareSingle, declareBroadcast, hm]
        | deleteQueue n =>
          have hn : name ≠ n := fun e => hc (by rw [e])
          simp [Call.methods, deleteQueue, deleteBroadcast, hn]
        | publish n o b => cases hm : o.mode <;> simp [Call.methods, publish, hm]
        | declareConsumer n => simp [Call.methods]
    | exec k =>
      simp only [step] at hs
      split at hs
      · cases hs
      · rename_i r0 hr0
        have ih0 := ih r0 (List.mem_of_getElem? hr0)
        have key : ∀ r1 : Running N B, (∀ m ∈ r1.rest, m ∈ r0.rest) → r ∈ s.calls.set k r1 → Method.queueDelete name ∉ r.rest ∧ Method.exchangeDelete name ∉ r.rest := by
          intro r1 h1 hr
          rcases PubAll.mem_set_cases hr with rfl | hr
          · exact ⟨fun hm => ih0.1 (h1 _ hm), fun hm => ih0.2 (h1 _ hm)⟩
          · exact ih r hr
        (repeat' split at hs) <;> simp only [Option.some.injEq, reduceCtorEq] at hs <;> subst hs
        · exact key { r0 with result := some none } (fun _ h => h) hr
        · exact key { r0 with result := some (some .ok) } (fun _ h => h) hr
        · rename_i hrest _
          exact key _ (fun _ h => by rw [hrest]; exact List.mem_cons_of_mem _ h) hr
        · exact key { r0 with result := some (some (method s r0.conn _).2) } (fun _ h => h) hr
    | _ =>
      simp only [step, remove] at hs
      (repeat' split at hs) <;> simp only [Option.some.injEq, reduceCtorEq] at hs <;> subst hs <;> exact ih r hr
  have key : ∀ (ls' : List (Label N B)) (s' : St N B), run dec prefetch s ls' = some s' → (∀ conn, .begin conn (.deleteQueue name) ∉ ls ++ ls') → .expire i ∉ ls' →
      There s name i → There s' name i ∧ ((s.exchanges.lookup name).isSome → (s'.exchanges.lookup name).isSome) ∧ ((name, i) ∈ s.bindings → (name, i) ∈ s'.bindings) := by
    intro ls' s' h'
    refine Lts.run_induction (P := fun (ls' : List (Label N B)) (s' : St N B) => (∀ conn, .begin conn (.deleteQueue name) ∉ ls ++ ls') → .expire i ∉ ls' →
      There s name i → There s' name i ∧ ((s.exchanges.lookup name).isSome → (s'.exchanges.lookup name).isSome) ∧ ((name, i) ∈ s.bindings → (name, i) ∈ s'.bindings))
      (fun _ _ h => ⟨h, fun h => h, fun h => h⟩) ?_ ls' s' h'
    intro ls1 l s1 s2 hr1 ih hs hd he ht
    have hd1 : ∀ conn, .begin conn (.deleteQueue name) ∉ ls ++ ls1 := fun conn hc => hd conn (by rw [← List.append_assoc]; exact List.mem_append_left _ hc)
    obtain ⟨i1, i2, i3⟩ := ih hd1 (fun hc => he (List.mem_append_left _ hc)) ht
    have k := keeps_step hs (fun e => he (e ▸ List.mem_append_right _ (List.mem_singleton.2 rfl))) (fun r hr _ _ => hcalls (ls ++ ls1) s1 (Lts.run_append.2 ⟨s, h, hr1⟩) hd1 r hr)
    exact ⟨k.queue i1, fun hx => k.exchange (i2 hx), fun hx => k.binding i1 (i3 hx)⟩
  have hn' := (inv_run (Lts.run_append.2 ⟨s, h, h'⟩)).names
  cases mode with
  | exactlyOnce =>
    obtain ⟨⟨q, k1, k2, k3⟩, -, -⟩ := key ls' s' h' hd he (find_some hr)
    show s'.find name = some i
    cases hf : s'.find name with
    | none => exact absurd k3 (find_none hf i q k1 k2)
    | some j =>
      obtain ⟨p, p1, p2, p3⟩ := find_some hf
      rw [hn'.uniq j i p q p1 k1 p2 k2 (p3.trans k3.symm)]
  | broadcast =>
    obtain ⟨h1, h2⟩ := hr
    obtain ⟨-, k2, k3⟩ := key ls' s' h' hd he ((inv_run h).names.bind name i h2)
    exact ⟨k2 h1, k3 h2⟩

/-- Hypotheses of `C50_lasts`: two broadcast channels, 7 and 8; process 1 releases 8, and 7 is still routed; a message published to it arrives in its queue. -/
def exLasts : List (Label Nat Nat) :=
  [.begin 0 (.declareQueue 7 ChannelType.broadcast.options), .exec 0, .exec 0, .exec 0, .exec 0, .begin 1 (.declareQueue 8 ChannelType.broadcast.options), .exec 1, .exec 1, .exec 1, .exec 1]

example : ∃ s s' : St Nat Nat, run (V := Nat) some 1 init exLasts = some s ∧ routes s .broadcast 7 0 ∧
    run (V := Nat) some 1 s [.begin 1 (.deleteQueue 8), .exec 2, .exec 2, .exec 2, .lose 1, .begin 0 (.publish 7 ChannelType.broadcast.options 42), .exec 3] = some s' ∧ routes s' .broadcast 7 0 ∧
    (s'.queues.map (·.ready)) = [[0], []] := ⟨_, _, rfl, by unfold routes; decide +kernel, rfl, by unfold routes; decide +kernel, by decide +kernel⟩

/-- **C65, errors.** A call that has failed, be it because the queue or exchange does not exist or because it exists with other options, has closed the AMQP channel it was made on, for
everything that uses it: no consumer of that connection is delivered anything after that, and every further call fails. -/
theorem C65_error_closes (h : run dec prefetch init ls = some s) {r : Running N B} (hr : r ∈ s.calls) {e : Res} (hres : r.result = some (some e)) (he : e ≠ .ok) :
    r.conn ∈ s.closed ∧ (∀ c ∈ s.consumers, c.conn = r.conn → s.canDeliver c = false) ∧
    ∀ j r', s.calls[j]? = some r' → r'.conn = r.conn → r'.result = none → (step dec prefetch s (.exec j)).map (fun s' => (s'.calls[j]?.bind (·.result), s'.queues)) = some (some none, s.queues) := by
  have hcl : r.conn ∈ s.closed := by
    refine Lts.run_inv (P := fun s : St N B => ∀ r ∈ s.calls, ∀ e, r.result = some (some e) → e ≠ .ok → r.conn ∈ s.closed) (by simp [init]) ?_ h r hr e hres he
    clear hr hres he h
    intro s l s' hi hs r hr e hres he
    cases l with
    | «begin» conn c =>
      simp only [step, Option.some.injEq] at hs; subst hs
      simp only [List.mem_append, List.mem_singleton] at hr
      rcases hr with hr | rfl
      · exact hi r hr e hres he
      · cases hres
    | exec k =>
      simp only [step] at hs
      split at hs
      · cases hs
      · rename_i r0 hr0
        split at hs
        · cases hs
        · rename_i hnone
          split at hs
          · simp only [Option.some.injEq] at hs; subst hs
            rcases PubAll.mem_set_cases hr with rfl | hr
            · cases hres
            · exact hi r hr e hres he
          · split at hs
            · simp only [Option.some.injEq] at hs; subst hs
              rcases PubAll.mem_set_cases hr with rfl | hr
              · simp only [Option.some.injEq] at hres; exact absurd hres.symm he
              · exact hi r hr e hres he
            · split at hs
              · simp only [Option.some.injEq] at hs; subst hs
                rw [show ({ (method s r0.conn _).1 with calls := _ } : St N B).closed = s.closed from (method_calls _ _).2]
                rcases PubAll.mem_set_cases hr with rfl | hr
                · simp only at hres; simp [hres] at hnone
                · exact hi r hr e hres he
              · simp only [Option.some.injEq] at hs; subst hs
                rcases PubAll.mem_set_cases hr with rfl | hr
                · exact List.mem_cons_self
                · exact List.mem_cons_of_mem _ (hi r hr e hres he)
    | lose conn =>
      simp only [step, Option.some.injEq] at hs; subst hs
      exact List.mem_cons_of_mem _ (hi r hr e hres he)
    | _ =>
      simp only [step, remove] at hs
      (repeat' split at hs) <;> simp only [Option.some.injEq, reduceCtorEq] at hs <;> subst hs <;> exact hi r hr e hres he
  refine ⟨hcl, fun c _ hc => by simp [St.canDeliver, hc, hcl], fun j r' hj hc hn => ?_⟩
  have hlt : j < s.calls.length := (List.getElem?_eq_some_iff.1 hj).1
  have hc' : s.closed.contains r'.conn = true := by simp [hc, hcl]
  have e1 : step dec prefetch s (.exec j) = some { s with calls := s.calls.set j { r' with result := some none } } := by
    simp only [step, hj, hn, Option.isSome_none, Bool.false_eq_true, if_false, hc', if_true]
  rw [e1]
  simp [hlt]

/-- Hypotheses of `C65_error_closes`: a consumer on channel 8; then a consumer is asked for on a name without a queue; the process can neither receive nor publish on 8 any more. -/
example : ∃ s : St Nat Nat, run (V := Nat) some 1 init [.begin 0 (.declareQueue 8 ChannelType.exactlyOnce.options), .exec 0, .exec 0, .begin 0 (.declareConsumer 8), .exec 1, .exec 1,
    .begin 0 (.declareConsumer 9), .exec 2, .begin 0 (.publish 8 ChannelType.exactlyOnce.options 5), .exec 3] = some s ∧ (s.calls.map (·.result)) = [some (some .ok), some (some .ok), some (some .notFound), some none] ∧
    (s.consumers.map fun c => s.canDeliver c) = [false] := ⟨_, rfl, by decide +kernel, by decide +kernel⟩

end Amqp
end Paladin
