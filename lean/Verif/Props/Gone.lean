import Verif.Proofs.Gone
import Verif.Props.InMem
/-!
# What a broadcast queue keeps for consumers that are gone (C92)

The claim, that a dropped consumer is forgotten, is false: `C92_collects`, `C92_backlog`, `C92_never_kept` and `C92_newcomer` say what happens instead, for every number of
threads and every interleaving; `C92_again_partial` is what is left of it.
-/
namespace Paladin
namespace InMem

/-- **C92** is false, the queue of a dropped consumer: once `declare_consumer` has returned consumer `name`, every message published later is put in its queue and stays
there, also when nobody receives on it any more because every handle was dropped. -/
theorem C92_collects {cfg : Cfg} {os1 os2 : List (BOp M)} {s1 s2 : BSt M} {name n : Nat} (h1 : BSt.init.run cfg os1 = some s1) (hd : name ∈ s1.declared)
    (h2 : s1.run cfg os2 = some s2) (hno : Deserted name os2) (hn : (publishedBy os1).length ≤ n) (hret : n ∈ s2.returned) :
    ∃ m, (publishedBy (os1 ++ os2))[n]? = some m ∧ (n, m) ∈ s2.queuedFor name := by
  have hrun : BSt.init.run cfg (os1 ++ os2) = some s2 := Lts.run_append.2 ⟨s1, h1, h2⟩
  have hlt : n < (publishedBy (os1 ++ os2)).length := ((idInv_run hrun).ret n hret).1
  have hlen : (publishedBy (os1 ++ os2)).length = (publishedBy os1).length + (publishedBy os2).length := by simp [publishedBy]
  obtain ⟨pre, m, post, rfl, hpre⟩ := split_published (os := os2) (n := n - (publishedBy os1).length) (by omega)
  obtain ⟨s', ha, hb⟩ := Lts.run_append.1 h2
  have hn' : (publishedBy (os1 ++ pre)).length = n := by simp [publishedBy] at hpre hn ⊢; omega
  have hk1 := (nameInv_run h1).declared name hd
  have hrun' : BSt.init.run cfg (os1 ++ pre) = some s' := Lts.run_append.2 ⟨s1, h1, ha⟩
  have hmono : name ∈ s'.declared := by
    refine Lts.run_inv (step := BSt.step cfg) (P := fun s => name ∈ s.declared) hd ?_ ha
    intro s o s'' hi hs
    cases br_of_step hs with
    | declOld => simp [hi]
    | insert => simp [hi]
    | _ => exact hi
  have hdel := C28_delivered hrun' hmono hb (by rw [hn']; exact hret)
  rw [hn'] at hdel
  refine ⟨m, ?_, ?_⟩
  · have : publishedBy (os1 ++ (pre ++ .publish m :: post)) = publishedBy (os1 ++ pre) ++ m :: publishedBy post := by simp [publishedBy, BOp.published]
    rw [this, ← hn']; simp
  · rcases List.mem_append.1 hdel with hr | hq
    · rw [received_run hk1 hno h2] at hr
      have := (C28_at_most_once h1 name).2 (n, m) (List.mem_append_left _ hr)
      have := (List.getElem?_eq_some_iff.1 this).1
      omega
    · exact hq

/-- **C92** is false, memory: the queue of a consumer nobody receives on holds at least as many messages as were published since. -/
theorem C92_backlog {cfg : Cfg} {os1 os2 : List (BOp M)} {s1 s2 : BSt M} {name : Nat} (h1 : BSt.init.run cfg os1 = some s1) (hd : name ∈ s1.declared)
    (h2 : s1.run cfg os2 = some s2) (hno : Deserted name os2) :
    (s2.returned.filter fun n => decide ((publishedBy os1).length ≤ n)).length ≤ (s2.queuedFor name).length := by
  have hrun : BSt.init.run cfg (os1 ++ os2) = some s2 := Lts.run_append.2 ⟨s1, h1, h2⟩
  have hnd := (idInv_run hrun).retNd.sublist (List.filter_sublist (p := fun n => decide ((publishedBy os1).length ≤ n)))
  have hsub : ∀ n ∈ s2.returned.filter fun n => decide ((publishedBy os1).length ≤ n), n ∈ (s2.queuedFor name).map Prod.fst := by
    intro n hn
    simp only [List.mem_filter, decide_eq_true_eq] at hn
    obtain ⟨m, _, hq⟩ := C92_collects h1 hd h2 hno hn.2 hn.1
    exact List.mem_map.2 ⟨_, hq, rfl⟩
  have := hnd.length_le_of_subset hsub
  simpa using this

/-- **C92** is false, the history: once `declare_consumer` has returned some consumer, no message published later is kept for a consumer still to come, whether or not the
consumer still exists. -/
theorem C92_never_kept {cfg : Cfg} {os1 os2 : List (BOp M)} {s1 s2 : BSt M} (h1 : BSt.init.run cfg os1 = some s1) (hd : s1.declared ≠ [])
    (h2 : s1.run cfg os2 = some s2) : ∀ x ∈ s2.hist ++ s2.inDeclarations, x.1 < (publishedBy os1).length := by
  obtain ⟨name, hname⟩ := List.exists_mem_of_ne_nil _ hd
  have hid := idInv_run h1
  have hh := histInv_run h1
  have hlt : ∀ x ∈ s1.kept, x.1 < (publishedBy os1).length := fun x hx => (List.getElem?_eq_some_iff.1 (hh.pay x hx)).1
  have h0 : NoHist cfg name (publishedBy os1).length s1 := by
    refine ⟨Nat.le_of_eq hid.ctr.symm, (nameInv_run h1).declared name hname, ?_, fun x hx => hlt x (List.mem_append_left _ hx), ?_⟩
    · intro p hp hge
      exact absurd (hid.id_lt hp) (Nat.not_lt.2 hge)
    · intro d hd x hx
      exact hlt x (List.mem_append_right _ (List.mem_flatMap.2 ⟨d, hd, hx⟩))
  have hN := noHist_run h0 h2
  intro x hx
  rcases List.mem_append.1 hx with hx | hx
  · exact hN.hist x hx
  · obtain ⟨d, hd, hx⟩ := List.mem_flatMap.1 hx
    exact hN.buf d hd x hx

/-- **C92** is false, the next consumer: a message published after some consumer was declared never reaches a consumer whose name is declared for the first time after the
publication has returned; also with persistent delivery, and also if every consumer there was had been dropped before the message was published. -/
theorem C92_newcomer {cfg : Cfg} {os1 os2 os3 : List (BOp M)} {s1 s2 s3 : BSt M} {name n : Nat} (h1 : BSt.init.run cfg os1 = some s1) (hd : s1.declared ≠ [])
    (h2 : s1.run cfg os2 = some s2) (hn : (publishedBy os1).length ≤ n) (hret : n ∈ s2.returned) (hnew : NeverDeclared name (os1 ++ os2))
    (h3 : s2.run cfg os3 = some s3) : n ∉ (s3.givenTo name).map Prod.fst := by
  have hrun : BSt.init.run cfg (os1 ++ os2) = some s2 := Lts.run_append.2 ⟨s1, h1, h2⟩
  have hid := idInv_run hrun
  have hkept := C92_never_kept h1 hd h2
  have h0 : Out n name s2 := by
    refine ⟨by rw [hid.ctr]; exact (hid.ret n hret).1, fun p hp he => (hid.ret n hret).2 (List.mem_map.2 ⟨p, hp, he⟩), ?_, ?_, ?_⟩
    · intro x hx he
      have := hkept x (List.mem_append_left _ hx); omega
    · intro d hd x hx he
      have := hkept x (List.mem_append_right _ (List.mem_flatMap.2 ⟨d, hd, hx⟩)); omega
    · intro c hc hcn
      exact absurd (by rw [hcn]) (hnew _ ((called_run hrun).1 c hc))
  have hout : Out n name s3 := by
    refine Lts.run_induction (step := BSt.step cfg) (P := fun _ s => Out n name s) h0 ?_ os3 s3 h3
    intro os o s s' hr ih hs
    exact out_step (consOk_run (Lts.run_append.2 ⟨s2, hrun, hr⟩)) ih hs
  unfold BSt.givenTo
  rw [received_queued]
  cases hf : s3.find name with
  | none => simp
  | some c => exact hout.cons c (find_some hf).1 (find_some hf).2

/-- **C92**, what holds (partial: the next consumer is declared under the name of one that is gone): declaring a name again gives a handle on the same queue, with all the
messages that came in the meantime and were not received. -/
theorem C92_again_partial {cfg : Cfg} {os1 : List (BOp M)} {s1 s2 : BSt M} {name : Nat} (h1 : BSt.init.run cfg os1 = some s1) (hd : name ∈ s1.declared)
    (h2 : s1.step cfg (.declare name) = some s2) : s2.queuedFor name = s1.queuedFor name ∧ s2.receivedBy name = s1.receivedBy name ∧ s2.decls = s1.decls := by
  obtain ⟨c, hc⟩ := find_of_name ((nameInv_run h1).declared name hd)
  cases br_of_step h2 with
  | declOld => exact ⟨rfl, rfl, rfl⟩
  | declNew _ _ _ hf => simp [hc] at hf
  | chan o nm c ch k ho => simp at ho

namespace GoneDemo

/-- Consumer 0 is declared and its only handle, which was waiting, is dropped. -/
def before : List (BOp Char) := [.declare 0, .decl 0, .decl 0, .poll 0 7, .drop 0 7]

/-- Then `'x'` is published, in persistent mode, with two shards. -/
def after : List (BOp Char) := [.publish 'x', .pub 0 0, .pub 0 0, .pub 0 0, .pub 0 0, .pub 0 0, .pub 0 0, .pub 0 0, .pub 0 0]

/-- Then consumer 1 is declared, polls and waits. -/
def late : List (BOp Char) := [.declare 1, .decl 0, .decl 0, .poll 1 8]

end GoneDemo

open GoneDemo in
/-- A persistent message published when no consumer is left lies in the queue of the dropped consumer 0; consumer 1, declared next, waits and does not get it; nothing is in
the history. The hypotheses of `C92_collects`, `C92_never_kept` and `C92_newcomer` hold. Only declaring consumer 0 again makes it available. -/
theorem C92_witness : ∃ s1 s2 s3 s4, BSt.init.run (two true) before = some s1 ∧ s1.run (two true) after = some s2 ∧ s2.run (two true) late = some s3 ∧
    s3.run (two true) [.declare 0, .poll 0 9, .pop 0 9] = some s4 ∧ s1.declared = [0] ∧ 0 ∈ s2.returned ∧ s2.pubs = [] ∧ s2.queuedFor 0 = [(0, 'x')] ∧ s2.hist = [] ∧
    s3.declared = [0, 1] ∧ s3.givenTo 1 = [] ∧ (s3.find 1).map (·.chan.waiters) = some [8] ∧ s4.receivedBy 0 = [(0, 'x')] :=
  ⟨_, _, _, _, rfl, rfl, rfl, rfl, by decide, by decide, by decide, by decide, by decide, by decide, by decide, by decide, by decide⟩

open GoneDemo in
example : Deserted 0 after ∧ NeverDeclared 1 (before ++ after) := by
  constructor
  · intro o ho h; simp [after] at ho; rcases ho with rfl | rfl <;> simp
  · intro o ho; simp [before, after] at ho; rcases ho with rfl | rfl | rfl | rfl | rfl | rfl <;> simp

end InMem
end Paladin
