import Verif.Lemmas.SharedReturns
import Verif.Props.Io
import Verif.Props.Compose
/-
Properties of io writers in threads that share a stream: C84.
-/

namespace Stylish.Props

open Spec

/-- What a job writes, for the turns the thread has had. -/
theorem job_part {T : Type} [StdIoWrite T] (k : IoSink T) (hk : FlushKeeps k) (whole : Bool) (fuel : Nat) (job : Job)
    (hp : job.Propagates) (s : Str) (hs : job.format = .ok s) (v : Turns whole T) :
    ∃ p, p <+: utf8 s ∧ (turnsSink k).delivered (job.run fuel v).2 = (turnsSink k).delivered v ++ p ∧
      ((job.run fuel v).1 = .ok () → p = utf8 s) := by
  cases job with
  | ansi args => exact C29_io_ansi (turnsSink (whole := whole) k) args hp s hs v fuel _ _ rfl
  | plain args => exact C29_io_plain (turnsSink (whole := whole) k) args hp s hs v fuel _ _ rfl
  | flush =>
    obtain rfl : [] = s := by simpa [Job.format] using hs
    refine ⟨[], List.nil_prefix, ?_, fun _ => rfl⟩
    obtain ⟨coming, past, asked⟩ := v
    cases coming with
    | nil => simp [turnsSink, Job.run, StdIoWrite.flush, Turns.call]
    | cons t rest =>
      have : added k (t, (StdIoWrite.flush t).2) = [] := added_of k (by rw [List.append_nil]; exact hk t _ _ rfl)
      simp [turnsSink, Job.run, StdIoWrite.flush, Turns.call, this]

/-- What one job after the other writes. -/
theorem jobs_part {T : Type} [StdIoWrite T] (k : IoSink T) (hk : FlushKeeps k) (whole : Bool) (fuel : Nat)
    (jobs : List Job) (hp : ∀ job ∈ jobs, job.Propagates) : ∀ (texts : List Str)
    (_ : jobs.map Job.format = texts.map .ok) (v : Turns whole T),
    ∃ p, p <+: utf8 texts.flatten ∧ (turnsSink k).delivered (Job.runAll fuel jobs v).2 = (turnsSink k).delivered v ++ p ∧
      ((Job.runAll fuel jobs v).1 = .ok () → p = utf8 texts.flatten) := by
  induction jobs with
  | nil =>
    intro texts hs v
    obtain rfl : texts = [] := by simpa using hs.symm
    exact ⟨[], List.nil_prefix, (List.append_nil _).symm, fun _ => rfl⟩
  | cons job jobs ih =>
    intro texts hs v
    rcases texts with _ | ⟨s, texts⟩
    · simp at hs
    obtain ⟨hs1, hs2⟩ := List.cons.inj hs
    obtain ⟨p, h1, h2, h3⟩ := job_part k hk whole fuel job (hp job (by simp)) s hs1 v
    rw [List.flatten_cons, utf8_append, Job.runAll, Act.bind_apply]
    rcases hx : job.run fuel v with ⟨r, v'⟩
    rw [hx] at h2 h3
    cases r with
    | ok u =>
      obtain ⟨p', g1, g2, g3⟩ := ih (fun j hj => hp j (by simp [hj])) texts hs2 v'
      obtain rfl := h3 rfl
      refine ⟨utf8 s ++ p', (List.prefix_append_right_inj _).2 g1, ?_, fun h => by rw [g3 h]⟩
      rw [← List.append_assoc, ← h2]; exact g2
    | err e => exact ⟨p, h1.trans (List.prefix_append _ _), h2, fun h => by simp at h⟩
    | panic => exact ⟨p, h1.trans (List.prefix_append _ _), h2, fun h => by simp at h⟩
    | diverge => exact ⟨p, h1.trans (List.prefix_append _ _), h2, fun h => by simp at h⟩

section
variable {T : Type} [StdIoWrite T] (k : IoSink T) (hk : FlushKeeps k) (whole : Bool) (fuel : Nat) (jobs : Nat → List Job)
  (hp : ∀ i, ∀ job ∈ jobs i, job.Propagates)
include hp

/-- What one thread has written, for the turns it has had. -/
theorem thread_part (hk : FlushKeeps k) (texts : Nat → List Str) (hs : ∀ i, (jobs i).map Job.format = (texts i).map .ok)
    (w : World T) (i : Nat) :
    (turnsSink k).delivered (World.thread whole fuel jobs i w).2 <+: utf8 (texts i).flatten ∧
    (World.Returned whole fuel jobs i (.ok ()) w →
      (turnsSink k).delivered (World.thread whole fuel jobs i w).2 = utf8 (texts i).flatten) := by
  obtain ⟨p, h1, h2, h3⟩ := jobs_part k hk whole fuel (jobs i) (hp i) (texts i) (hs i) ⟨w.had i, [], none⟩
  have h2 : (turnsSink k).delivered (World.thread whole fuel jobs i w).2 = p := h2
  rw [h2]
  exact ⟨h1, fun h => h3 h.2⟩

/-- Further turns of others, and of itself, change nothing for a thread that has returned. -/
theorem returned_stays (i : Nat) (schedule : List Nat) : ∀ (w : World T),
    (World.thread whole fuel jobs i w).2.asked = none →
    World.thread whole fuel jobs i (World.run whole fuel jobs schedule w) = World.thread whole fuel jobs i w ∧
    ∃ n, turnsOf i (World.log whole fuel jobs k schedule w) = List.replicate n [] := by
  induction schedule with
  | nil => intro w _; exact ⟨rfl, 0, rfl⟩
  | cons j schedule ih =>
    intro w h
    by_cases hj : j = i
    · subst hj
      have e : World.turn whole fuel jobs w j = w := by unfold World.turn; rw [h]
      obtain ⟨h1, n, h2⟩ := ih w h
      refine ⟨by simpa only [World.run, List.foldl_cons, e] using h1, n + 1, ?_⟩
      simp only [World.log, e, turnsOf, List.drop_length] at h2 ⊢
      simp [h2, List.replicate_succ]
    · have e : World.thread whole fuel jobs i (World.turn whole fuel jobs w j) = World.thread whole fuel jobs i w := by
        rcases World.turn_cases (whole := whole) (fuel := fuel) hp w j with e | ⟨c, -, -, -, g⟩
        · rw [e]
        · exact g i (fun e => hj e.symm)
      obtain ⟨h1, n, h2⟩ := ih (World.turn whole fuel jobs w j) (by rw [e]; exact h)
      refine ⟨by rw [← e]; exact h1, n, ?_⟩
      simp only [World.log, turnsOf] at h2 ⊢
      simpa [hj] using h2

/-- The calls of a thread are its turns, and it has returned when there are more turns than calls. -/
theorem run_turns (i : Nat) (schedule : List Nat) : ∀ (w : World T),
    ∃ l n, (World.thread whole fuel jobs i (World.run whole fuel jobs schedule w)).2.past =
        (World.thread whole fuel jobs i w).2.past ++ l ∧
      turnsOf i (World.log whole fuel jobs k schedule w) = l.map (added k) ++ List.replicate n [] := by
  induction schedule with
  | nil => intro w; exact ⟨[], 0, by simp [World.run], rfl⟩
  | cons j schedule ih =>
    intro w
    by_cases hj : j = i
    · subst hj
      rcases h : (World.thread whole fuel jobs j w).2.asked with _ | c
      · obtain ⟨h1, n, h2⟩ := returned_stays k whole fuel jobs hp j (j :: schedule) w h
        exact ⟨[], n, by rw [h1]; simp, h2⟩
      · rcases World.turn_cases (whole := whole) (fuel := fuel) hp w j with e | ⟨c', g0, g1, g2, -⟩
        · obtain ⟨l, n, h1, h2⟩ := ih w
          exfalso
          have := congrArg (fun w => (w.had j).length) e
          unfold World.turn at this
          rw [h] at this
          simp at this
        · obtain ⟨l, n, h1, h2⟩ := ih (World.turn whole fuel jobs w j)
          refine ⟨(w.device, c'.perform w.device) :: l, n, ?_, ?_⟩
          · have e : World.run whole fuel jobs (j :: schedule) w =
              World.run whole fuel jobs schedule (World.turn whole fuel jobs w j) := rfl
            rw [e, h1, g2]; simp
          · simp only [World.log, turnsOf, g1] at h2 ⊢
            simp [h2, added]
    · have e : World.thread whole fuel jobs i (World.turn whole fuel jobs w j) = World.thread whole fuel jobs i w := by
        rcases World.turn_cases (whole := whole) (fuel := fuel) hp w j with e | ⟨c, -, -, -, g⟩
        · rw [e]
        · exact g i (fun e => hj e.symm)
      obtain ⟨l, n, h1, h2⟩ := ih (World.turn whole fuel jobs w j)
      refine ⟨l, n, by rw [← e]; exact h1, ?_⟩
      simp only [World.log, turnsOf] at h2 ⊢
      simpa [hj] using h2

/-- At the start no call has been made. -/
theorem start_past (t : T) (i : Nat) : (World.thread whole fuel jobs i (.start t)).2.past = [] := by
  obtain ⟨-, h⟩ := (Job.all_turnwise (jobs i) (whole := whole) (T := T) (fuel := fuel) (hp i)).grows ⟨[], [], none⟩
  have h : (World.thread whole fuel jobs i (.start t)).2.past.length +
    (World.thread whole fuel jobs i (.start t)).2.coming.length = 0 := h
  exact List.length_eq_zero_iff.1 (by omega)

include hk

theorem run_delivered (schedule : List Nat) : ∀ (w : World T),
    k.delivered (World.run whole fuel jobs schedule w).device =
      k.delivered w.device ++ (World.log whole fuel jobs k schedule w).flatMap Prod.snd := by
  induction schedule with
  | nil => intro w; simp [World.run, World.log]
  | cons i schedule ih =>
    intro w
    have e : World.run whole fuel jobs (i :: schedule) w =
      World.run whole fuel jobs schedule (World.turn whole fuel jobs w i) := rfl
    rw [e, ih, World.log, List.flatMap_cons, ← List.append_assoc]
    congr 1
    rcases World.turn_cases (whole := whole) (fuel := fuel) hp w i with e | ⟨c, -, g, -, -⟩
    · rw [e]; simp
    · rw [g]; exact perform_adds k hk c w.device

/-- C84: any number of threads, each doing one job after the other (formatting into a writer of its own around one
shared stream, or flushing), under any schedule of their calls, whether or not the stream answers `write_all` as one
call. What the stream has got is what it had before and then, turn by turn, what was written in the turn; and what was
written in the turns of any one thread is a prefix of the bytes of `ansi::format` (`plain::format`) of the arguments of
its jobs, and all of them if it has returned `Ok`: nothing of it is lost, repeated or out of order, whatever the others
do. -/
theorem C84_shared (texts : Nat → List Str) (hs : ∀ i, (jobs i).map Job.format = (texts i).map .ok) (t : T)
    (schedule : List Nat) :
    k.delivered (World.run whole fuel jobs schedule (.start t)).device =
      k.delivered t ++ (World.log whole fuel jobs k schedule (.start t)).flatMap Prod.snd ∧
    ∀ i, (turnsOf i (World.log whole fuel jobs k schedule (.start t))).flatten <+: utf8 (texts i).flatten ∧
      (World.Returned whole fuel jobs i (.ok ()) (World.run whole fuel jobs schedule (.start t)) →
        (turnsOf i (World.log whole fuel jobs k schedule (.start t))).flatten = utf8 (texts i).flatten) := by
  refine ⟨run_delivered k hk whole fuel jobs hp schedule (.start t), fun i => ?_⟩
  obtain ⟨l, n, h1, h2⟩ := run_turns k whole fuel jobs hp i schedule (.start t)
  rw [start_past whole fuel jobs hp, List.nil_append] at h1
  have e : (turnsOf i (World.log whole fuel jobs k schedule (.start t))).flatten =
      (turnsSink k).delivered (World.thread whole fuel jobs i (World.run whole fuel jobs schedule (.start t))).2 := by
    simp [h2, turnsSink, h1, List.flatMap_def]
  rw [e]
  exact thread_part k whole fuel jobs hp hk texts hs _ i

omit hk hp in
theorem log_threads (schedule : List Nat) : ∀ (w : World T),
    (World.log whole fuel jobs k schedule w).map Prod.fst = schedule := by
  induction schedule with
  | nil => intro w; rfl
  | cons i schedule ih => intro w; rw [World.log, List.map_cons, ih]

end

section
variable {T : Type} [StdIoWrite T] (k : IoSink T) (hk : FlushKeeps k) (whole : Bool) (fuel : Nat) (jobs : Nat → List Job)
  (hp : ∀ i, ∀ job ∈ jobs i, job.Propagates)

omit [StdIoWrite T] in
theorem turns_eta {whole : Bool} (x : Res IoError Unit × Turns whole T) (h1 : x.1 = .ok ()) (h2 : x.2.coming = [])
    (h3 : x.2.asked = none) : x = (.ok (), ⟨[], x.2.past, none⟩) := by
  obtain ⟨r, c, p, a⟩ := x
  obtain rfl : r = .ok () := h1
  obtain rfl : c = [] := h2
  obtain rfl : a = none := h3
  rfl

/-- What a thread between two jobs has written. -/
theorem between_part (hk : FlushKeeps k) (i : Nat) (hp : ∀ job ∈ jobs i, job.Propagates) (texts : List Str)
    (hs : (jobs i).map Job.format = texts.map .ok) (m : Nat) (w : World T) (h : World.Between whole fuel jobs i m w) :
    (turnsSink k).delivered (World.thread whole fuel jobs i w).2 = utf8 (texts.take m).flatten := by
  obtain ⟨-, b1, b2, b3⟩ := h
  have h := turns_eta _ b1 b2 b3
  generalize (Job.runAll fuel ((jobs i).take m) (⟨w.had i, [], none⟩ : Turns whole T)).2.past = past at h
  have hpt : ∀ job ∈ (jobs i).take m, job.Propagates := fun j hj => hp j (List.mem_of_mem_take hj)
  have hpd : ∀ job ∈ (jobs i).drop m, job.Propagates := fun j hj => hp j (List.mem_of_mem_drop hj)
  obtain ⟨p, -, h2, h3⟩ := jobs_part k hk whole fuel ((jobs i).take m) hpt (texts.take m)
    (by rw [List.map_take, hs, List.map_take]) ⟨w.had i, [], none⟩
  rw [h] at h2 h3
  rw [← h3 rfl]
  have e : (World.thread whole fuel jobs i w).2 = (Job.runAll fuel ((jobs i).drop m) (⟨[], past, none⟩ : Turns whole T)).2 := by
    unfold World.thread
    conv => lhs; rw [← List.take_append_drop m (jobs i)]
    rw [Job.runAll_append, Act.bind_apply, h]
  have g : (World.thread whole fuel jobs i w).2.past = past := by
    rw [e]
    exact ((Job.all_turnwise (whole := whole) (T := T) (fuel := fuel) ((jobs i).drop m) hpd).still ⟨[], past, none⟩ rfl).1
  have h2 : past.flatMap (added k) = p := by simpa [turnsSink] using h2
  show (World.thread whole fuel jobs i w).2.past.flatMap (added k) = p
  rw [g, h2]

/-- The turns of other threads change nothing for a thread. -/
theorem had_other (i j n : Nat) (h : i ≠ j) : ∀ (w : World T),
    (World.run whole fuel jobs (List.replicate n j) w).had i = w.had i := by
  induction n with
  | zero => intro w; rfl
  | succ n ih =>
    intro w
    have e : World.run whole fuel jobs (List.replicate (n + 1) j) w =
      World.run whole fuel jobs (List.replicate n j) (World.turn whole fuel jobs w j) := rfl
    rw [e, ih]
    unfold World.turn
    split
    · rfl
    · simp [h]

include hp

/-- Holds one after the other, from threads that are between two jobs. -/
theorem holds_deliver (hk : FlushKeeps k) (texts : Nat → List Str) (hs : ∀ i, (jobs i).map Job.format = (texts i).map .ok)
    (holds : List Hold) : ∀ (m : Nat → Nat) (w : World T), (∀ i, World.Between whole fuel jobs i (m i) w) →
    (∀ before h, before ++ [h] <+: holds → World.Between whole fuel jobs h.thread
      (m h.thread + Hold.done h.thread (before ++ [h]))
      (World.run whole fuel jobs (Hold.schedule (before ++ [h])) w)) →
    k.delivered (World.run whole fuel jobs (Hold.schedule holds) w).device =
      k.delivered w.device ++ utf8 (Hold.inOrder (fun i => (texts i).drop (m i)) holds).flatten := by
  induction holds with
  | nil => intro m w _ _; simp [World.run, Hold.schedule, Hold.inOrder, utf8]
  | cons h holds ih =>
    intro m w hb hh
    have hb1 : World.Between whole fuel jobs h.thread (m h.thread + h.jobs)
        (World.run whole fuel jobs (List.replicate h.turns h.thread) w) := by
      have := hh [] h (List.prefix_append [h] holds)
      simpa [Hold.done, Hold.schedule] using this
    have split : ∀ hs : List Hold, World.run whole fuel jobs (Hold.schedule (h :: hs)) w =
        World.run whole fuel jobs (Hold.schedule hs) (World.run whole fuel jobs (List.replicate h.turns h.thread) w) := by
      intro hs
      rw [Hold.schedule, List.flatMap_cons, World.run, List.foldl_append]; rfl
    obtain ⟨m', hm'⟩ : ∃ m' : Nat → Nat, ∀ i, m' i = if i = h.thread then m i + h.jobs else m i := ⟨_, fun _ => rfl⟩
    have key := ih m' (World.run whole fuel jobs (List.replicate h.turns h.thread) w)
      (by
        intro i
        rw [hm']
        by_cases hi : i = h.thread
        · rw [if_pos hi, hi]; exact hb1
        · rw [if_neg hi]
          unfold World.Between
          rw [had_other whole fuel jobs i h.thread h.turns hi]
          exact hb i)
      (by
        intro before h' hpre
        have := hh (h :: before) h' (List.cons_prefix_cons.2 ⟨rfl, hpre⟩)
        rw [List.cons_append, split] at this
        rw [hm']
        by_cases hi : h'.thread = h.thread
        · rw [if_pos hi]
          simp only [Hold.done, List.filter_cons, hi, decide_true, if_true, List.map_cons, List.sum_cons] at this ⊢
          rw [Nat.add_assoc]; exact this
        · rw [if_neg hi]
          have hi' : ¬ h.thread = h'.thread := fun e => hi e.symm
          simp only [Hold.done, List.filter_cons, hi', decide_false] at this ⊢
          exact this)
    rw [split, key, Hold.inOrder, List.flatten_append, utf8_append, ← List.append_assoc]
    congr 1
    · rw [run_delivered k hk whole fuel jobs hp]
      congr 1
      obtain ⟨l, n, h1, h2⟩ := run_turns k whole fuel jobs hp h.thread (List.replicate h.turns h.thread) w
      have e1 := between_part k whole fuel jobs hk h.thread (hp _) (texts h.thread) (hs _) _ _ hb1
      have e0 := between_part k whole fuel jobs hk h.thread (hp _) (texts h.thread) (hs _) _ _ (hb h.thread)
      have e2 : (turnsSink k).delivered (World.thread whole fuel jobs h.thread
          (World.run whole fuel jobs (List.replicate h.turns h.thread) w)).2 =
          (turnsSink k).delivered (World.thread whole fuel jobs h.thread w).2 ++ l.flatMap (added k) := by
        show List.flatMap _ _ = List.flatMap _ _ ++ _
        rw [h1, List.flatMap_append]
      rw [e1, e0, List.take_add, List.flatten_append, utf8_append] at e2
      have e2 := List.append_cancel_left e2
      rw [e2]
      have e3 : (World.log whole fuel jobs k (List.replicate h.turns h.thread) w).flatMap Prod.snd =
          (turnsOf h.thread (World.log whole fuel jobs k (List.replicate h.turns h.thread) w)).flatten := by
        unfold turnsOf
        rw [List.filter_eq_self.2, List.flatMap_def]
        intro x hx
        have : x.1 ∈ (World.log whole fuel jobs k (List.replicate h.turns h.thread) w).map Prod.fst :=
          List.mem_map_of_mem hx
        rw [log_threads] at this
        simpa using (List.mem_replicate.1 this).2
      rw [e3, h2]
      simp [List.flatMap_def]
    · congr 3
      funext i
      rw [hm']
      by_cases hi : i = h.thread
      · rw [if_pos hi, if_pos hi, List.drop_drop]
      · rw [if_neg hi, if_neg hi]

/-- C84: threads that keep the stream to themselves for some jobs (each holds the lock for one message, or for
several): if every hold begins and ends between two jobs, the stream has got the messages whole, one after the other, in
the order of the holds. -/
theorem C84_locked (hk : FlushKeeps k) (texts : Nat → List Str) (hs : ∀ i, (jobs i).map Job.format = (texts i).map .ok)
    (t : T) (holds : List Hold)
    (hh : ∀ before h, before ++ [h] <+: holds → World.Between whole fuel jobs h.thread
      (Hold.done h.thread (before ++ [h])) (World.run whole fuel jobs (Hold.schedule (before ++ [h])) (.start t))) :
    k.delivered (World.run whole fuel jobs (Hold.schedule holds) (.start t)).device =
      k.delivered t ++ utf8 (Hold.inOrder texts holds).flatten := by
  have h := holds_deliver k whole fuel jobs hp hk texts hs holds (fun _ => 0) (.start t)
    (fun i => ⟨Nat.zero_le _, rfl, rfl, rfl⟩) (by simpa using hh)
  simp only [List.drop_zero] at h
  exact h

/-- C84: a thread that is between two jobs and then has all the turns does its next jobs as if it were run straight on
the stream: given enough turns, it leaves the stream in the same state; and it has then done these jobs if they return
`Ok`, and has returned the error if not. (The stream answers `write_all` as one call, or its `write_all` is std's
default one.) -/
theorem C84_alone (hw : whole = true ∨ ∀ fuel b (t : T),
      StdIoWrite.writeAll fuel b t = stdWriteAll StdIoWrite.write fuel b t)
    (i m j : Nat) (hm : m + j ≤ (jobs i).length) (w : World T) (h : World.Between whole fuel jobs i m w) :
    ∃ n, (World.run whole fuel jobs (List.replicate n i) w).device =
        (Job.runAll fuel (((jobs i).drop m).take j) w.device).2 ∧
      ((Job.runAll fuel (((jobs i).drop m).take j) w.device).1 = .ok () →
        World.Between whole fuel jobs i (m + j) (World.run whole fuel jobs (List.replicate n i) w)) ∧
      ((Job.runAll fuel (((jobs i).drop m).take j) w.device).1 ≠ .ok () →
        World.Returned whole fuel jobs i (Job.runAll fuel (((jobs i).drop m).take j) w.device).1
          (World.run whole fuel jobs (List.replicate n i) w)) := by
  obtain ⟨-, b1, b2, b3⟩ := h
  have h := turns_eta _ b1 b2 b3
  generalize (Job.runAll fuel ((jobs i).take m) (⟨w.had i, [], none⟩ : Turns whole T)).2.past = past at h
  have hj : jobs i = (jobs i).take m ++ ((jobs i).drop m).take j ++ (jobs i).drop (m + j) := by
    rw [List.append_assoc, ← List.drop_drop, List.take_append_drop, List.take_append_drop]
  obtain ⟨n, past', h1, h2⟩ := World.run_alone (fuel := fuel) hw i _ _ _ hj (hp i) w past h
  refine ⟨n, h1, fun hr => ?_, fun hr => ?_⟩
  · refine ⟨hm, ?_⟩
    simp only [List.take_add, h2, hr, and_self]
  · have e : World.thread whole fuel jobs i (World.run whole fuel jobs (List.replicate n i) w) =
        ((Job.runAll fuel (((jobs i).drop m).take j) w.device).1, ⟨[], past', none⟩) := by
      unfold World.thread
      conv => lhs; rw [hj]
      rw [Job.runAll_append, Act.bind_apply, h2]
      revert hr
      generalize (Job.runAll fuel (((jobs i).drop m).take j) w.device).1 = r
      intro hr
      cases r with
      | ok u => exact absurd rfl hr
      | err e => rfl
      | panic => rfl
      | diverge => rfl
    unfold World.Returned
    rw [e]
    exact ⟨rfl, rfl⟩

omit hp in
/-- A thread that has done all its jobs has returned `Ok`. -/
theorem between_returned (i : Nat) (w : World T) (h : World.Between whole fuel jobs i (jobs i).length w) :
    World.Returned whole fuel jobs i (.ok ()) w := by
  obtain ⟨-, b1, -, b3⟩ := h
  rw [List.take_length] at b1 b3
  exact ⟨b3, b1⟩

omit hp in
/-- In whatever order, the same is done to all that is said. -/
theorem inOrder_map {A B : Type} (f : A → B) (holds : List Hold) : ∀ (said : Nat → List A),
    Hold.inOrder (fun i => (said i).map f) holds = (Hold.inOrder said holds).map f := by
  induction holds with
  | nil => intro said; rfl
  | cons h holds ih =>
    intro said
    rw [Hold.inOrder, Hold.inOrder, List.map_append, ← ih, List.map_take]
    congr 2
    funext i
    split
    · rw [List.map_drop]
    · rfl

omit hp in
/-- Only what threads have to say is said. -/
theorem inOrder_mem {A : Type} (x : A) (holds : List Hold) : ∀ (said : Nat → List A),
    x ∈ Hold.inOrder said holds → ∃ i, x ∈ said i := by
  induction holds with
  | nil => intro said h; simp [Hold.inOrder] at h
  | cons h holds ih =>
    intro said hx
    rw [Hold.inOrder, List.mem_append] at hx
    rcases hx with hx | hx
    · exact ⟨_, List.mem_of_mem_take hx⟩
    · obtain ⟨i, hi⟩ := ih _ hx
      refine ⟨i, ?_⟩
      split at hi
      · exact List.mem_of_mem_drop hi
      · exact hi

omit hp in
theorem plain_is_ansi (t : List Chunk) :
    ansiRender (flatten (t.map fun ch => (ch.1, Style.default))) = text (flatten t) := by
  have h : ∀ u : Styled, (∀ x ∈ u, x.2 = Style.default) →
      renderWith ansiSwitch plainEnc Style.default u = text u ∧ lastStyle Style.default u = Style.default := by
    intro u
    induction u with
    | nil => intro _; exact ⟨rfl, rfl⟩
    | cons x u ih =>
      intro hu
      obtain ⟨c, st⟩ := x
      obtain rfl : st = Style.default := hu (c, st) (by simp)
      obtain ⟨h1, h2⟩ := ih fun x hx => hu x (by simp [hx])
      refine ⟨?_, h2⟩
      rw [renderWith, ansiSwitch_self, h1]
      rfl
  obtain ⟨h1, h2⟩ := h (flatten (t.map fun ch => (ch.1, Style.default))) (by
    intro x hx
    simp only [flatten, List.mem_flatMap, List.mem_map] at hx
    obtain ⟨ch, ⟨ch', -, rfl⟩, hx⟩ := hx
    simp only [paint, List.mem_map] at hx
    obtain ⟨c, -, rfl⟩ := hx
    rfl)
  rw [ansiRender, h1, h2, ansiSwitch_self, List.append_nil]
  clear h h1 h2
  induction t with
  | nil => rfl
  | cons ch t ih =>
    simp only [flatten, text, List.map_cons, List.flatMap_cons, List.map_append] at ih ⊢
    rw [ih]
    congr 1
    simp [paint]

omit hp in
theorem job_format (job : Job) (chs : List Chunk) (h : job.styled = (chs, .ok ())) :
    job.format = .ok (ansiRender (flatten chs)) := by
  cases job with
  | ansi args =>
    have h : writes args.f Style.default FormatterArgs.default = (chs, .ok ()) := h
    rw [Job.format, ansiFormat_eq, denote, h]
    rfl
  | plain args =>
    obtain ⟨h1, h2⟩ := Prod.mk.inj h
    rw [Job.format, plainFormat_eq, denote, h2, ← h1, plain_is_ansi]
    rfl
  | flush =>
    obtain ⟨rfl, -⟩ := Prod.mk.inj h
    rfl

/-- C84: and a terminal shows the messages of such threads one after the other, each character in its style. -/
theorem C84_locked_shows (hk : FlushKeeps k) (chs : Nat → List (List Chunk))
    (hj : ∀ i, (jobs i).map Job.styled = (chs i).map (fun c => (c, .ok ())))
    (hesc : ∀ i, ∀ c ∈ chs i, NoEsc c) (t : T) (ht : k.delivered t = []) (holds : List Hold)
    (hh : ∀ before h, before ++ [h] <+: holds → World.Between whole fuel jobs h.thread
      (Hold.done h.thread (before ++ [h])) (World.run whole fuel jobs (Hold.schedule (before ++ [h])) (.start t)))
    (kind : TermKind) (hkind : kind = .exclusive ∨ ∀ i, ∀ c ∈ chs i, NoBoldFaint (flatten c)) :
    ∃ out, k.delivered (World.run whole fuel jobs (Hold.schedule holds) (.start t)).device = utf8 out ∧
      Terminal.fresh.feed kind out =
        ⟨.ground, Attrs.initial, shouldLook ((Hold.inOrder chs holds).flatMap flatten)⟩ := by
  have hs : ∀ i, (jobs i).map Job.format = ((chs i).map fun c => ansiRender (flatten c)).map .ok := by
    intro i
    have h := hj i
    generalize jobs i = js at h
    generalize chs i = cs at h
    induction js generalizing cs with
    | nil =>
      obtain rfl : cs = [] := by simpa using h.symm
      rfl
    | cons j js ih =>
      rcases cs with _ | ⟨c, cs⟩
      · simp at h
      obtain ⟨h1, h2⟩ := List.cons.inj h
      rw [List.map_cons, List.map_cons, List.map_cons, job_format j c h1, ih cs h2]
  have h := C84_locked k whole fuel jobs hp hk _ hs t holds hh
  rw [ht, List.nil_append, inOrder_map] at h
  refine ⟨_, h, ?_⟩
  have h := C51_ansi stringSink
    ((Hold.inOrder chs holds).map fun c => (StdString.new, c, ansiRender (flatten c)))
    (by
      intro p hp
      obtain ⟨c, -, rfl⟩ := List.mem_map.1 hp
      exact (ansiFinished_exists stringSink stringSink_accepting StdString.new c).2)
    (by
      intro p hp
      obtain ⟨c, hc, rfl⟩ := List.mem_map.1 hp
      obtain ⟨i, hi⟩ := inOrder_mem c holds chs hc
      exact hesc i c hi) kind
    (hkind.imp id fun h p hp => by
      obtain ⟨c, hc, rfl⟩ := List.mem_map.1 hp
      obtain ⟨i, hi⟩ := inOrder_mem c holds chs hc
      exact h i c hi)
  rw [List.flatMap_map, List.flatMap_map, List.flatMap_def] at h
  exact h

end

/-! ### Pieces -/

section
variable {T : Type} [StdIoWrite T] (k : IoSink T) (fuel : Nat)

/-- Over a stream that takes all it is offered, an `io::Plain` on the stream of a thread makes one call for each piece
of text. -/
theorem plain_calls (hall : ∀ b (t : T), b.length ≤ fuel → (StdIoWrite.writeAll fuel b t).1 = .ok ())
    (chs : List Chunk) (hf : ∀ ch ∈ chs, (utf8 ch.1).length ≤ fuel) : ∀ (w : ErrorTrap (IoPlain fuel (Turns true T))), ∃ l,
      (writeChunks chs w).2.inner.inner.past = w.inner.inner.past ++ l ∧
      l.map (added k) <+: chs.map (fun ch => utf8 ch.1) ∧
      ((writeChunks chs w).1 = .ok () → l.map (added k) = chs.map (fun ch => utf8 ch.1)) := by
  induction chs with
  | nil => intro w; exact ⟨[], by simp [writeChunks], by simp, by simp⟩
  | cons ch chs ih =>
    rintro ⟨⟨⟨coming, past, asked⟩⟩, e⟩
    obtain ⟨o, he⟩ := IoPlain.trap_writeStr ch.1 ch.2 (⟨⟨⟨coming, past, asked⟩⟩, e⟩ : ErrorTrap (IoPlain fuel (Turns true T)))
    rw [writeChunks_cons, he]
    cases coming with
    | nil =>
      exact ⟨[], by simp [StdIoWrite.writeAll, Turns.call], by simp, by simp [StdIoWrite.writeAll, Turns.call]⟩
    | cons t rest =>
      have h := hall (utf8 ch.1) t (hf ch (by simp))
      have e1 : StdIoWrite.writeAll fuel (utf8 ch.1) (⟨t :: rest, past, asked⟩ : Turns true T) =
          (.ok (), ⟨rest, past ++ [(t, (StdIoWrite.writeAll fuel (utf8 ch.1) t).2)], asked⟩) := by
        rw [← h]; rfl
      simp only [e1]
      obtain ⟨l, h1, h2, h3⟩ := ih (fun c hc => hf c (by simp [hc])) ⟨⟨⟨rest, past ++ [(t, (StdIoWrite.writeAll fuel (utf8 ch.1) t).2)], asked⟩⟩, o⟩
      have := k.all.ok fuel (utf8 ch.1) t _ (Prod.ext h rfl)
      refine ⟨(t, (StdIoWrite.writeAll fuel (utf8 ch.1) t).2) :: l, by rw [h1]; simp, ?_, fun hr => ?_⟩
      · rw [List.map_cons, List.map_cons, added_of k this]
        exact (List.cons_prefix_cons).2 ⟨rfl, h2⟩
      · rw [List.map_cons, List.map_cons, added_of k this, h3 hr]

/-- The same for one text after the other. -/
theorem plain_jobs_calls (hall : ∀ b (t : T), b.length ≤ fuel → (StdIoWrite.writeAll fuel b t).1 = .ok ())
    (argss : List Arguments) (hp : ∀ args ∈ argss, Propagates args.f) : ∀ (chss : List (List Chunk))
    (_ : argss.map (fun args => writes args.f Style.default FormatterArgs.default) = chss.map (fun chs => (chs, .ok ())))
    (_ : ∀ chs ∈ chss, ∀ ch ∈ chs, (utf8 ch.1).length ≤ fuel) (v : Turns true T), ∃ l,
      (Job.runAll fuel (argss.map Job.plain) v).2.past = v.past ++ l ∧
      l.map (added k) <+: chss.flatten.map (fun ch => utf8 ch.1) := by
  induction argss with
  | nil =>
    intro chss _ _ v
    exact ⟨[], (List.append_nil _).symm, List.nil_prefix⟩
  | cons args argss ih =>
    intro chss hc hf v
    rcases chss with _ | ⟨chs, chss⟩
    · simp at hc
    obtain ⟨hc1, hc2⟩ := List.cons.inj hc
    obtain ⟨l, h1, h2, h3⟩ := plain_calls k fuel hall chs (hf chs (by simp)) (ErrorTrap.new (IoPlain.new v))
    have e : ∃ r v', (Job.plain args).run fuel v = (r, v') ∧ v'.past = v.past ++ l ∧
        (r = .ok () → l.map (added k) = chs.map (fun ch => utf8 ch.1)) := by
      refine ⟨_, _, rfl, ?_⟩
      have hc1 : writes args.f Style.default FormatterArgs.default = (chs, .ok ()) := hc1
      simp only [IoWrite.writeFmt]
      rw [Write.writeFmt_propagates args (hp args (by simp)), denote, hc1]
      rcases hw : writeChunks chs (ErrorTrap.new (IoPlain.new v : IoPlain fuel (Turns true T))) with ⟨r, w⟩
      rw [hw] at h1 h3
      cases r with
      | ok u => exact ⟨h1, fun _ => h3 rfl⟩
      | err e => exact ⟨h1, fun h => by cases h⟩
      | panic => exact ⟨h1, fun h => by cases h⟩
      | diverge => exact ⟨h1, fun h => by cases h⟩
    obtain ⟨r, v', e1, e2, e3⟩ := e
    rw [List.map_cons, Job.runAll, Act.bind_apply, e1, List.flatten_cons, List.map_append]
    cases r with
    | ok u =>
      obtain ⟨l', g1, g2⟩ := ih (fun a ha => hp a (by simp [ha])) chss hc2 (fun c hc => hf c (by simp [hc])) v'
      refine ⟨l ++ l', by rw [← List.append_assoc, ← e2]; exact g1, ?_⟩
      rw [List.map_append, e3 rfl]
      exact (List.prefix_append_right_inj _).2 g2
    | err e => exact ⟨l, e2, h2.trans (List.prefix_append _ _)⟩
    | panic => exact ⟨l, e2, h2.trans (List.prefix_append _ _)⟩
    | diverge => exact ⟨l, e2, h2.trans (List.prefix_append _ _)⟩

/-- C84: `io::Plain` over a stream that answers `write_all` as one call and takes all it is offered: each turn of the
thread writes one piece of the text whole (one call of `write_str` by the program that is formatted), so that no piece
of text is ever torn by another thread. -/
theorem C84_pieces (jobs : Nat → List Job) (hp : ∀ i, ∀ job ∈ jobs i, job.Propagates)
    (hall : ∀ b (t : T), b.length ≤ fuel → (StdIoWrite.writeAll fuel b t).1 = .ok ()) (i : Nat) (argss : List Arguments)
    (hi : jobs i = argss.map .plain) (chss : List (List Chunk))
    (hc : argss.map (fun args => writes args.f Style.default FormatterArgs.default) = chss.map (fun chs => (chs, .ok ())))
    (hf : ∀ chs ∈ chss, ∀ ch ∈ chs, (utf8 ch.1).length ≤ fuel) (t : T) (schedule : List Nat) :
    ∃ m n, turnsOf i (World.log true fuel jobs k schedule (.start t)) =
      (chss.flatten.take m).map (fun ch => utf8 ch.1) ++ List.replicate n [] := by
  obtain ⟨l, n, h1, h2⟩ := run_turns k true fuel jobs hp i schedule (.start t)
  rw [start_past true fuel jobs hp, List.nil_append] at h1
  have hpi : ∀ args ∈ argss, Propagates args.f := fun args h => hp i (.plain args) (by rw [hi]; exact List.mem_map_of_mem h)
  obtain ⟨l', g1, g2⟩ := plain_jobs_calls k fuel hall argss hpi chss hc hf
    ⟨(World.run true fuel jobs schedule (.start t)).had i, [], none⟩
  have e : (World.thread true fuel jobs i (World.run true fuel jobs schedule (.start t))).2.past = l' := by
    rw [World.thread, hi]
    simpa using g1
  obtain rfl : l = l' := h1.symm.trans e
  refine ⟨l.length, n, ?_⟩
  rw [h2]
  congr 1
  have := List.prefix_iff_eq_take.1 g2
  simpa [List.map_take] using this

end

/-! ### Turns enough -/

/-- C84: over a stream that takes something of whatever it is offered (and all of it with `write_all`, if this is one
call), a thread that gets enough turns returns `Ok`, however the turns of the others fall between them: nobody is kept
from returning by what the others do. -/
theorem C84_returns {T : Type} [StdIoWrite T] (k : IoSink T) (whole : Bool)
    (hw : ∀ b (t : T), b ≠ [] → ∃ n, (StdIoWrite.write b t).1 = .ok (n + 1))
    (hall : whole = true → ∀ fuel b (t : T), b.length ≤ fuel → (StdIoWrite.writeAll fuel b t).1 = .ok ())
    (hfl : ∀ t : T, (StdIoWrite.flush t).1 = .ok ())
    (jobs : Nat → List Job) (i : Nat) (hp : ∀ job ∈ jobs i, job.Propagates)
    (hs : ∀ job ∈ jobs i, ∃ s, job.format = .ok s) :
    ∃ enough n, ∀ fuel, enough ≤ fuel → ∀ (t : T) (schedule : List Nat), n ≤ schedule.count i →
      World.Returned whole fuel jobs i (.ok ()) (World.run whole fuel jobs schedule (.start t)) := by
  obtain ⟨enough, n, h⟩ := Job.enough (whole := whole) (T := T) (jobs i) hp hs
  refine ⟨enough, n, fun fuel hf t schedule hn => ?_⟩
  have hT : Prompt whole fuel T := by
    refine ⟨fun b t hb => ?_, fun hwh b t => hall hwh fuel b t, hfl⟩
    obtain ⟨m, hm⟩ := hw b t hb
    exact ⟨m, hm, (k.contract.ok b t _ (m + 1) (Prod.ext hm rfl)).1⟩
  have h : ∀ ts : List T, n ≤ ts.length →
      (Job.runAll fuel (jobs i) ⟨ts, [], none⟩ : _ × Turns whole T).1 = .ok () ∧
      (Job.runAll fuel (jobs i) ⟨ts, [], none⟩ : _ × Turns whole T).2.asked = none := by
    intro ts hts
    obtain ⟨a, h1, h2, -⟩ := h fuel hf hT ⟨ts, [], none⟩ hts rfl
    exact ⟨h1, h2⟩
  rcases World.turns_used (whole := whole) (fuel := fuel) (jobs := jobs) i schedule (.start t) with h1 | h1
  · refine ⟨h1, ?_⟩
    have e := no_more hp _ (List.replicate n t) h1
    have g := (h (((World.run whole fuel jobs schedule (.start t)).had i) ++ List.replicate n t) (by simp)).1
    rw [e] at g
    exact g
  · have hl : n ≤ ((World.run whole fuel jobs schedule (.start t)).had i).length := by
      rw [h1]; simp [World.start]; omega
    exact ⟨(h _ hl).2, (h _ hl).1⟩

/-! ### Without a lock, and examples -/

/-- Thread 0 writes a red x, every other thread a blue y. -/
def redAndBlue (i : Nat) : List Job :=
  if i = 0 then [.ansi ⟨.within (.of (Foreground.mk .Red)) (.writeStr ['x'] .done) .done⟩]
  else [.ansi ⟨.within (.of (Foreground.mk .Blue)) (.writeStr ['y'] .done) .done⟩]

/-- C84: without a lock the texts arrive whole, but not as they should look: `io::Ansi` writes an escape sequence with
several calls. Here thread 1 gets its turns after thread 0 has written `ESC [`: both return `Ok`, and the terminal
shows "y31mx" in no colour but for the y. With a lock held while each formats and finishes, it shows a red x and a
blue y. -/
theorem C84_torn :
    let torn := World.run true 9 redAndBlue [0, 1, 1, 1, 1, 1, 0, 0, 0, 0] (.start (⟨[], []⟩ : ScriptSink))
    let locked := World.run true 9 redAndBlue [0, 0, 0, 0, 0, 1, 1, 1, 1, 1] (.start (⟨[], []⟩ : ScriptSink))
    (World.Returned true 9 redAndBlue 0 (.ok ()) torn ∧ World.Returned true 9 redAndBlue 1 (.ok ()) torn ∧
      (Terminal.fresh.feedBytes .exclusive torn.device.got).screen =
        [('y', ⟨.Blue, .Default, false, false⟩), ('3', Attrs.initial), ('1', Attrs.initial), ('m', Attrs.initial),
          ('x', Attrs.initial)]) ∧
    (World.Returned true 9 redAndBlue 0 (.ok ()) locked ∧ World.Returned true 9 redAndBlue 1 (.ok ()) locked ∧
      (Terminal.fresh.feedBytes .exclusive locked.device.got).screen =
        [('x', ⟨.Red, .Default, false, false⟩), ('y', ⟨.Blue, .Default, false, false⟩)]) := by
  unfold World.Returned
  decide +kernel

/-- A stream that takes two bytes at a time. -/
structure Slow where
  got : Bytes
  deriving DecidableEq, Repr

instance : StdIoWrite Slow where
  write b t := (.ok (min 2 b.length), ⟨t.got ++ b.take 2⟩)
  flush t := (.ok (), t)

/-- It obeys the contract. -/
def slow : IoSink Slow :=
  have contract : WriteContract (StdIoWrite.write (T := Slow)) id Slow.got := by
    constructor
    · intro b t t' n h
      simp only [StdIoWrite.write, Prod.mk.injEq, Res.ok.injEq] at h
      obtain ⟨rfl, rfl⟩ := h
      exact ⟨Nat.min_le_right _ _, by simp [List.take_eq_take_min]⟩
    · intro b t t' e h
      simp [StdIoWrite.write] at h
    · intro b t t' r h hr
      simp only [StdIoWrite.write, Prod.mk.injEq] at h
      obtain ⟨rfl, rfl⟩ := h
      simp at hr
  { delivered := Slow.got, contract, all := .default contract }

theorem slow_flush : FlushKeeps slow := by
  intro t t' r h
  rw [← (Prod.mk.inj h).2]

theorem slow_write (b : Bytes) (t : Slow) (hb : b ≠ []) : ∃ n, (StdIoWrite.write b t).1 = .ok (n + 1) := by
  have : 0 < b.length := List.length_pos_iff.2 hb
  exact ⟨min 2 b.length - 1, congrArg Res.ok (by omega)⟩

theorem slow_all (fuel : Nat) : ∀ (b : Bytes) (t : Slow), b.length ≤ fuel →
    (StdIoWrite.writeAll fuel b t).1 = .ok () := by
  show ∀ (b : Bytes) (t : Slow), b.length ≤ fuel → (stdWriteAll StdIoWrite.write fuel b t).1 = .ok ()
  induction fuel with
  | zero =>
    intro b t hb
    obtain rfl : b = [] := List.length_eq_zero_iff.1 (by omega)
    rfl
  | succ fuel ih =>
    intro b t hb
    by_cases hne : b = []
    · subst hne; rfl
    · obtain ⟨n, hn⟩ := slow_write b t hne
      have hle := (slow.contract.ok b t _ (n + 1) (Prod.ext hn rfl)).1
      rw [stdWriteAll]
      simp only [List.isEmpty_iff, hne, if_false]
      rcases hw : StdIoWrite.write b t with ⟨r, t'⟩
      rw [hw] at hn
      obtain rfl : r = .ok (n + 1) := hn
      simp only [hle, if_true]
      exact ih _ _ (by simp; omega)

/-- Thread 0 writes a red x and a blue y and flushes between them; the others write without styles, twice. -/
def twoJobs (i : Nat) : List Job :=
  if i = 0 then
    [.ansi ⟨.within (.of (Foreground.mk .Red)) (.writeStr ['x'] .done) .done⟩, .flush,
      .ansi ⟨.within (.of (Foreground.mk .Blue)) (.writeStr ['y'] .done) .done⟩]
  else [.plain ⟨.writeStr ['p', 'q', 'r'] (Disp.try_ <| .writeStr ['s', 't'] .done)⟩, .plain ⟨.writeStr ['u'] .done⟩]

theorem twoJobs_propagates (i : Nat) : ∀ job ∈ twoJobs i, job.Propagates := by
  unfold twoJobs
  intro job h
  split at h
  · simp only [List.mem_cons, List.not_mem_nil, or_false] at h
    rcases h with rfl | rfl | rfl
    · exact ⟨⟨rfl, trivial⟩, rfl, trivial⟩
    · trivial
    · exact ⟨⟨rfl, trivial⟩, rfl, trivial⟩
  · simp only [List.mem_cons, List.not_mem_nil, or_false] at h
    rcases h with rfl | rfl
    · exact ⟨rfl, rfl, trivial⟩
    · exact ⟨rfl, trivial⟩

/-- C84 is not empty: the hypotheses of the theorems hold of these programs and this stream. -/
example : FlushKeeps slow ∧ (∀ i, ∀ job ∈ twoJobs i, job.Propagates) ∧
    (∀ i, (twoJobs i).map Job.format =
      (if i = 0 then [str "\x1b[31mx\x1b[0m", [], str "\x1b[34my\x1b[0m"] else [str "pqrst", str "u"]).map .ok) ∧
    (∀ b (t : Slow), b ≠ [] → ∃ n, (StdIoWrite.write b t).1 = .ok (n + 1)) ∧
    (∀ fuel b (t : Slow), b.length ≤ fuel → (StdIoWrite.writeAll fuel b t).1 = .ok ()) ∧
    (∀ t : Slow, (StdIoWrite.flush t).1 = .ok ()) ∧
    (∀ fuel b (t : Slow), StdIoWrite.writeAll fuel b t = stdWriteAll StdIoWrite.write fuel b t) := by
  refine ⟨slow_flush, twoJobs_propagates, fun i => ?_, fun b t hb => slow_write b t hb,
    fun fuel b t h => slow_all fuel b t h, fun _ => rfl, fun _ _ _ => rfl⟩
  unfold twoJobs
  by_cases h : i = 0
  · simp only [h, if_true]; decide +kernel
  · simp only [h, if_false]; decide +kernel

/-- What is to be seen of them. -/
def twoTexts (i : Nat) : List (List Chunk) :=
  if i = 0 then [[(['x'], ⟨.Red, .Default, .Normal⟩)], [], [(['y'], ⟨.Blue, .Default, .Normal⟩)]]
  else [[(['p', 'q', 'r'], Style.default), (['s', 't'], Style.default)], [(['u'], Style.default)]]

example : (∀ i, (twoJobs i).map Job.styled = (twoTexts i).map (fun c => (c, .ok ()))) ∧
    (∀ i, ∀ c ∈ twoTexts i, NoEsc c) ∧ slow.delivered ⟨[]⟩ = [] := by
  refine ⟨fun i => ?_, fun i c hc => ?_, rfl⟩
  · unfold twoJobs twoTexts
    by_cases h : i = 0
    · simp only [h, if_true]; decide +kernel
    · simp only [h, if_false]; decide +kernel
  · unfold twoTexts at hc
    split at hc
    · simp only [List.mem_cons, List.not_mem_nil, or_false] at hc
      rcases hc with rfl | rfl | rfl <;> simp [NoEsc, ESC]
    · simp only [List.mem_cons, List.not_mem_nil, or_false] at hc
      rcases hc with rfl | rfl <;> simp [NoEsc, ESC]

/-- A schedule with calls of `write_all` answered as one: the pieces "pqr" and "st" are whole. -/
example :
    World.log true 9 twoJobs slow [0, 1, 0, 0, 1, 0, 1, 0, 1, 0, 0] (.start ⟨[]⟩) =
      [(0, utf8 (str "\x1b[")), (1, utf8 (str "pqr")), (0, utf8 (str "31")), (0, utf8 (str "m")), (1, utf8 (str "st")),
        (0, utf8 (str "x")), (1, utf8 (str "u")), (0, utf8 (str "\x1b[0m")), (1, []), (0, []), (0, utf8 (str "\x1b["))] ∧
    World.Returned true 9 twoJobs 1 (.ok ())
      (World.run true 9 twoJobs [0, 1, 0, 0, 1, 0, 1, 0, 1, 0, 0] (.start (⟨[]⟩ : Slow))) := by
  unfold World.Returned
  decide +kernel

/-- The same programs with std's default `write_all`, in which every `write` is a turn: now pieces are torn, but what
each thread has written is still its text in order. -/
example :
    World.log false 9 twoJobs slow [1, 0, 1, 0, 1, 0, 0] (.start ⟨[]⟩) =
      [(1, utf8 (str "pq")), (0, utf8 (str "\x1b[")), (1, utf8 (str "r")), (0, utf8 (str "31")), (1, utf8 (str "st")),
        (0, utf8 (str "m")), (0, utf8 (str "x"))] := by decide +kernel

/-- Threads that take turns in holding the lock: thread 0 for its first message and the flush, then thread 1 for its
first one, then each for its second one. -/
def fourHolds : List Hold := [⟨0, 6, 2⟩, ⟨1, 2, 1⟩, ⟨0, 5, 1⟩, ⟨1, 1, 1⟩]

/-- Each hold begins and ends between two jobs. -/
theorem fourHolds_between (before : List Hold) (h : Hold) (hpre : before ++ [h] <+: fourHolds) :
    World.Between true 9 twoJobs h.thread (Hold.done h.thread (before ++ [h]))
      (World.run true 9 twoJobs (Hold.schedule (before ++ [h])) (.start (⟨[]⟩ : Slow))) := by
  have e := List.prefix_iff_eq_take.1 hpre
  have hl := hpre.length_le
  rw [List.length_append, List.length_singleton] at e hl
  generalize before.length = n at e hl
  have hl : n < 4 := hl
  have hh : h = (fourHolds.take (n + 1)).getLastD ⟨0, 0, 0⟩ := by rw [← e]; simp
  rw [e]
  unfold World.Between
  rcases n with _ | _ | _ | _ | n
  · rw [hh]; decide +kernel
  · rw [hh]; decide +kernel
  · rw [hh]; decide +kernel
  · rw [hh]; decide +kernel
  · omega

example : Hold.inOrder twoTexts fourHolds =
    [[(['x'], ⟨.Red, .Default, .Normal⟩)], [], [(['p', 'q', 'r'], Style.default), (['s', 't'], Style.default)],
      [(['y'], ⟨.Blue, .Default, .Normal⟩)], [(['u'], Style.default)]] := by decide +kernel

end Stylish.Props
