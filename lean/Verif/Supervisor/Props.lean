import Verif.Supervisor.Model

/-! # C40: A query supervisor reports completion exactly once per batch and only at the end -/

namespace Verif.Supervisor

/-- A batch: a query for some partitions on behalf of a client, followed by the replies to its requests, each with its
    number among the requests of the batch and whether it is a result or an error. -/
structure Batch where
  partitions : List Nat
  client : Nat
  replies : List (Nat × Bool)

/-- Every request of the batch is answered, in any order. -/
def Batch.Answered (b : Batch) : Prop := (b.replies.map (·.1)).Perm (List.range b.partitions.length)

/-- The messages of a batch whose requests are numbered from `base`. -/
def Batch.messages (b : Batch) (base : Nat) : List In :=
  .query b.partitions b.client :: b.replies.map fun r => .reply (base + r.1) r.2

/-- The messages of several batches. -/
def messages : Nat → List Batch → List In
  | _, [] => []
  | base, b :: bs => b.messages base ++ messages (base + b.partitions.length) bs

namespace Spec

/-- What has to be sent for each message of a batch: first a request to each partition, then nothing, until the last reply:
    then `done` to the client and the offer to the master. Without partitions, both are sent at once. -/
def sent (b : Batch) (base : Nat) : List (List Out) :=
  match b.partitions with
  | [] => [[.done b.client, .worker]]
  | _ :: _ => b.partitions.mapIdx (fun i p => Out.request (base + i) p) :: List.replicate (b.partitions.length - 1) [] ++ [[.done b.client, .worker]]

def allSent : Nat → List Batch → List (List Out)
  | _, [] => []
  | base, b :: bs => sent b base ++ allSent (base + b.partitions.length) bs

end Spec

open Spec

theorem run_append (s : State) (a b : List In) :
    run s (a ++ b) = ((run (run s a).1 b).1, (run s a).2 ++ (run (run s a).1 b).2) := by
  induction a generalizing s with
  | nil => simp [run]
  | cons m a ih => simp [run, ih]

theorem sendRequests_eq (client : Nat) : ∀ (ps : List Nat) (s : State), sendRequests client ps s =
    ({ openRequests := s.openRequests + ps.length, handlers := s.handlers ++ (List.range ps.length).map (fun i => (s.numbers + i, client)),
       numbers := s.numbers + ps.length }, ps.mapIdx fun i p => Out.request (s.numbers + i) p)
  | [], s => by simp [sendRequests]
  | p :: ps, s => by
    rw [sendRequests, sendRequests_eq client ps]
    simp only [List.append_assoc, List.length_cons, List.mapIdx_cons, Nat.add_zero]
    have h1 : [(s.numbers, client)] ++ (List.range ps.length).map (fun i => (s.numbers + 1 + i, client)) =
        (List.range (ps.length + 1)).map (fun i => (s.numbers + i, client)) := by
      rw [List.range_succ_eq_map]
      simp only [List.map_cons, List.map_map, List.singleton_append, Nat.add_zero, List.cons.injEq, true_and]
      apply List.map_congr_left
      intro i _
      simp only [Function.comp, Nat.succ_eq_add_one]
      rw [show s.numbers + 1 + i = s.numbers + (i + 1) by omega]
    rw [h1]
    have h2 : (fun (i : Nat) (p : Nat) => Out.request (s.numbers + 1 + i) p) = fun i p => Out.request (s.numbers + (i + 1)) p := by
      funext i p
      rw [show s.numbers + 1 + i = s.numbers + (i + 1) by omega]
    simp only [h2]
    rw [show s.openRequests + 1 + ps.length = s.openRequests + (ps.length + 1) by omega,
      show s.numbers + 1 + ps.length = s.numbers + (ps.length + 1) by omega]

/-- All replies to the requests that are open: those of `open_`, in any order. -/
theorem run_replies (base client numbers : Nat) : ∀ (rs : List (Nat × Bool)) (open_ : List Nat), open_.Nodup → (rs.map (·.1)).Perm open_ → rs ≠ [] →
    run ⟨open_.length, open_.map (fun i => (base + i, client)), numbers⟩ (rs.map fun r => .reply (base + r.1) r.2) =
      (⟨0, [], numbers⟩, List.replicate (rs.length - 1) [] ++ [[.done client, .worker]])
  | [], _, _, _, h => absurd rfl h
  | (i, ok) :: rs, open_, hnd, hp, _ => by
    have hi : i ∈ open_ := hp.mem_iff.1 (by simp)
    have hl : (open_.map (fun i => (base + i, client))).lookup (base + i) = some client := by
      clear hnd hp
      induction open_ with
      | nil => cases hi
      | cons j open_ ih =>
        rw [List.map_cons, List.lookup_cons]
        by_cases h : base + i = base + j
        · have : (base + i == base + j) = true := by simpa using h
          rw [this]
        · have : (base + i == base + j) = false := by simpa using h
          rw [this]
          apply ih
          rcases List.mem_cons.1 hi with rfl | hi
          · exact absurd rfl h
          · exact hi
    have hf : (open_.map (fun i => (base + i, client))).filter (fun x => x.1 != base + i) =
        (open_.erase i).map (fun i => (base + i, client)) := by
      rw [hnd.erase_eq_filter, List.filter_map]
      congr 1
      apply List.filter_congr
      intro j _
      simp only [Function.comp]
      by_cases h : j = i
      · subst h; simp
      · have h' : base + j ≠ base + i := by omega
        rw [bne_iff_ne.2 h, bne_iff_ne.2 h']
    have hp' : (rs.map (·.1)).Perm (open_.erase i) := by
      have := hp.erase i
      rwa [List.map_cons, List.erase_cons_head] at this
    have hlen : (open_.erase i).length = open_.length - 1 := List.length_erase_of_mem hi
    rw [List.map_cons, run, step, onReply]
    simp only [hl]
    rw [hf, ← hlen]
    cases rs with
    | nil =>
      have h0 : open_.erase i = [] := by simpa using List.perm_nil.1 hp'.symm
      simp [h0, run]
    | cons r rs =>
      have hne : (open_.erase i).length ≠ 0 := by
        rw [← hp'.length_eq]; simp
      rw [run_replies base client numbers (r :: rs) (open_.erase i) (hnd.erase i) hp' (by simp)]
      simp only [hne, if_false]
      simp [List.replicate_succ]

theorem run_batch (b : Batch) (hb : b.Answered) (n : Nat) :
    run ⟨0, [], n⟩ (b.messages n) = (⟨0, [], n + b.partitions.length⟩, sent b n) := by
  rw [Batch.Answered] at hb
  rw [Batch.messages, run, step, sent]
  cases hps : b.partitions with
  | nil =>
    rw [hps] at hb
    have : b.replies = [] := by
      have := hb.length_eq
      simpa using this
    simp [onQuery, this, run]
  | cons p ps =>
    have hne : b.replies ≠ [] := by
      intro h
      rw [h, hps] at hb
      have := hb.length_eq
      simp at this
    rw [hps] at hb
    rw [onQuery, sendRequests_eq]
    simp only [Nat.zero_add, List.nil_append]
    have h := run_replies n b.client (n + (p :: ps).length) b.replies (List.range (p :: ps).length) List.nodup_range hb hne
    rw [List.length_range] at h
    rw [h]
    have : b.replies.length = (p :: ps).length := by
      have := hb.length_eq
      simpa using this
    rw [this]
    rfl

theorem run_batches : ∀ (bs : List Batch) (n : Nat), (∀ b ∈ bs, b.Answered) →
    run ⟨0, [], n⟩ (messages n bs) = (⟨0, [], n + (bs.map (·.partitions.length)).sum⟩, allSent n bs)
  | [], n, _ => by simp [messages, run, allSent]
  | b :: bs, n, h => by
    rw [messages, run_append, run_batch b (h b (by simp)) n]
    simp only
    rw [run_batches bs _ fun b hb => h b (by simp [hb])]
    simp only [allSent, List.map_cons, List.sum_cons, Nat.add_assoc]

/-- C40: for every sequence of batches, where the master sends the next one after the supervisor has offered itself, and
    in every order of results and errors: the supervisor sends the query to each partition of the batch once, reports
    `done` to the client exactly once, together with the last reply, and offers itself to the master exactly then. -/
theorem C40_done_once (bs : List Batch) (h : ∀ b ∈ bs, b.Answered) :
    (run start.1 (messages 0 bs)).2 = allSent 0 bs := by
  rw [start, run_batches bs 0 h]

/-- C40: the assertion of the supervisor, that no request is open when a query arrives, holds whenever the master sends a
    query only to an idle supervisor. -/
theorem C40_idle_between (bs : List Batch) (h : ∀ b ∈ bs, b.Answered) :
    (run start.1 (messages 0 bs)).1.openRequests = 0 ∧ (run start.1 (messages 0 bs)).1.handlers = [] := by
  rw [start, run_batches bs 0 h]
  exact ⟨rfl, rfl⟩

/-- How often a client is told that its batch is done. -/
def doneCount (client : Nat) (outs : List (List Out)) : Nat := (outs.flatten).count (.done client)

theorem count_requests (client base : Nat) (ps : List Nat) : (ps.mapIdx fun i p => Out.request (base + i) p).count (.done client) = 0 := by
  rw [List.count_eq_zero]
  intro h
  obtain ⟨i, hi, he⟩ := List.mem_mapIdx.1 h
  cases he

/-- C40: every client gets as many `done` messages as it has batches. -/
theorem C40_done_count (bs : List Batch) (h : ∀ b ∈ bs, b.Answered) (client : Nat) :
    doneCount client (run start.1 (messages 0 bs)).2 = bs.countP (·.client == client) := by
  rw [C40_done_once bs h]
  clear h
  have : ∀ n, doneCount client (allSent n bs) = bs.countP (·.client == client) := by
    induction bs with
    | nil => intro n; rfl
    | cons b bs ih =>
      intro n
      have h1 : doneCount client (sent b n) = if (b.client == client) = true then 1 else 0 := by
        rw [doneCount, sent]
        cases hp : b.partitions with
        | nil => by_cases hc : b.client = client <;> simp [hc]
        | cons p ps =>
          simp only [List.cons_append, List.flatten_cons, List.flatten_append, List.count_append, count_requests]
          by_cases hc : b.client = client <;> simp [hc]
      rw [allSent, List.countP_cons, ← ih (n + b.partitions.length), ← h1]
      simp only [doneCount, List.flatten_append, List.count_append]
      omega
  exact this 0

/-- Two batches: three partitions, of which one fails, then none. -/
def sampleBatches : List Batch := [⟨[7, 8, 9], 1, [(2, true), (0, false), (1, true)]⟩, ⟨[], 2, []⟩]

example : (∀ b ∈ sampleBatches, b.Answered) ∧ (run start.1 (messages 0 sampleBatches)).2 =
    [[.request 0 7, .request 1 8, .request 2 9], [], [], [.done 1, .worker], [.done 2, .worker]] := by
  refine ⟨?_, by decide⟩
  intro b hb
  simp only [sampleBatches, List.mem_cons, List.not_mem_nil, or_false] at hb
  rcases hb with rfl | rfl <;> simp only [Batch.Answered] <;> decide

/-- If a second query arrived before the supervisor has offered itself again, the first client would not hear of the end of
    its batch. -/
theorem C40_protocol_needed : ∃ ms : List In, ms = [.query [7] 1, .query [8] 2, .reply 0 true, .reply 1 true] ∧
    doneCount 1 (run start.1 ms).2 = 0 ∧ doneCount 2 (run start.1 ms).2 = 1 := ⟨_, rfl, by decide, by decide⟩

end Verif.Supervisor
