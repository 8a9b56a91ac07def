import Verif.Proofs.LocksRun
import Verif.Proofs.LocksAux
/-
C117: mutexes.  Full statement: in every interleaving of threads that call the library (from completion handlers, too) and of the threads of the queues no thread
waits for itself through a chain of mutexes, and nobody waits for requests, events, semaphores or threads with a mutex locked; so whoever waits for a mutex gets it
when the threads go on.
C118: data races.  Full statement: in no interleaving two threads access the same data at the same time, one of them writing.
-/
namespace Foxxll.Locks
open Ch

/-- A client of the linuxaio queue 5 cancels request 0 successfully; the handler of the request submits another one. -/
def kernelRun : List Act := actions 60 .user [f (.aioKernel 0 5), l, r, n 0, l, r, f (.submit 5), l, l, r, r, r, l, l, l, l, l, l, l]

/-- **C117 is false** for cancellation with linuxaio: if `io_cancel` succeeds the request is completed, and its handler called, with `waiting_mtx_` locked; a handler
that submits a request to the queue waits for its own thread. -/
theorem C117_false : ∃ s, Reach (fun _ => True) s ∧ WaitsFor s 0 0 := by
  obtain ⟨s, h, hw⟩ := run_two (k := []) (user_thread 60 _ : thread _ kernelRun) (.inl .user0) (φ := waitsB 0 0) (List.replicate 25 0) (by decide +kernel)
  exact ⟨s, h, waitsB_sound hw⟩

/-- The destructor of the queues. -/
def destroyRun : List Act := actions 60 .user [f .destroyQueues, r, n 5, l, l]
/-- A worker whose handler submits a request. -/
def workerRun : List Act := actions 60 (.call (.workerQ 5)) [r, l, r, n 0, n 0, n 0, l, l, l, l, l, l, l, r, f (.submit 5), l, l, r, l, l, l, l, l]

/-- **C117 is false** for the destructor of `disk_queues`: it waits with the mutex locked for the end of the worker, whose handler waits for the mutex. -/
theorem C117_false_destructor : ∃ s, Reach (fun _ => True) s ∧ WaitsFor s 1 0 ∧ ∃ l, s.rem 0 = .wait (.join 5) :: l := by
  obtain ⟨s, h, hw⟩ := run_two (user_thread 60 _ : thread _ destroyRun) (worker_thread 60 5 _ : thread _ workerRun)
    (φ := fun s => waitsB 1 0 s && atB 0 (.join 5) .queues s) (List.replicate 10 0 ++ List.replicate 39 1) (by decide +kernel)
  rw [Bool.and_eq_true] at hw
  exact ⟨s, h, waitsB_sound hw.1, (atB_sound hw.2).1⟩

/-- First use of the block manager with a disk of type fileperblock. -/
def managerRun : List Act := actions 60 .user [f (.get .manager), r, r, l, r, n 7, n 5, l, l, l, l, l, r, n 8, l, l, l, l, n 5, l, l, r, l, l, n 9, l, l, l, l, l, l, l]
/-- A worker whose handler uses the block manager. -/
def allocRun : List Act := actions 60 (.call (.workerQ 5)) [r, l, r, n 0, n 0, n 0, l, l, l, l, l, l, l, r, f (.get .manager), r, l, l, l, l, l]

/-- **C117 is false** for the constructor of the block manager with a file of type fileperblock: it waits for a request to a queue (the lock file) with the mutex of
the singleton locked; if a handler called by the worker of this queue uses the block manager, both wait forever. -/
theorem C117_false_manager : ∃ s, Reach (fun _ => True) s ∧ WaitsFor s 1 0 ∧ ∃ l, s.rem 0 = .wait (.lockFile 8) :: l := by
  obtain ⟨s, h, hw⟩ := run_two (user_thread 60 _ : thread _ managerRun) (worker_thread 60 5 _ : thread _ allocRun)
    (φ := fun s => waitsB 1 0 s && atB 0 (.lockFile 8) (.single .manager) s) (List.replicate 34 0 ++ List.replicate 39 1) (by decide +kernel)
  rw [Bool.and_eq_true] at hw
  exact ⟨s, h, waitsB_sound hw.1, (atB_sound hw.2).1⟩

/-- Cancellation of a queued request. -/
def cancelRun : List Act := actions 60 .user [f (.cancel 0 5), r, l, r, l, r, l, l]

/-- **C117 is false** for cancellation: `cancel_request` takes a token of the semaphore with the mutex of `disk_queues` locked. -/
theorem C117_false_cancel : ∃ s, Reach (fun _ => True) s ∧ (∃ l, s.rem 0 = .wait (.token 5) :: l) ∧ s.holder .queues = some 0 := by
  obtain ⟨s, h, hw⟩ := run_two (k := []) (user_thread 60 _ : thread _ cancelRun) (.inl .user0) (φ := atB 0 (.token 5) .queues) (List.replicate 12 0) (by decide +kernel)
  exact ⟨s, h, atB_sound hw⟩

/-- **C117, partial** (no successful `io_cancel`, no destruction of the queues): if a thread waits for a mutex, a chain of waiting threads leads to a thread that has a
mutex and can go on; it does not wait for requests, events or threads, but perhaps for a token of the semaphore (in `cancel_request`) or for the lock file
of fileperblock. -/
theorem C117_partial {A : Fn → Prop} (ha : ∀ r q, ¬ A (.aioKernel r q)) (hd : ¬ A .queuesDtor) {s : St} (h : Reach A s) {t u : Nat} (hw : WaitsFor s t u) :
    ∃ v, Chain s t v ∧ (∃ m, s.holder m = some v) ∧ Free s v ∧ ∀ c l, s.rem v = .wait c :: l → (∃ q, c = .token q) ∨ ∃ f, c = .lockFile f := by
  have hm : Reach (fun f => ¬ BadO f) s := h.mono fun f hf hb => by
    cases f <;> simp only [BadO] at hb
    · exact hd hf
    · exact ha _ _ hf
  obtain ⟨held, i⟩ := inv_reach (o := True) (g := False) (fun f h => fits_order f h) hm
  obtain ⟨m, l, hr, hh⟩ := hw
  obtain ⟨v, hv, hk, hf, hc⟩ := free_from i 12 m u (by omega) hh
  have w : WaitsFor s t u := ⟨m, l, hr, hh⟩
  refine ⟨v, ?_, hk, hf, fun c l e => ?_⟩
  · rcases hv with hv | hv
    · subst hv; exact .one w
    · exact .more w hv
  · have := hc c l e
    cases c <;> simp only [short] at this
    · cases this
    · cases this
    · cases this
    · exact .inl ⟨_, rfl⟩
    · cases this
    · exact .inr ⟨_, rfl⟩
    · cases this

/-- **C117, partial**: no thread waits for itself. -/
theorem C117_cycle_partial {A : Fn → Prop} (ha : ∀ r q, ¬ A (.aioKernel r q)) (hd : ¬ A .queuesDtor) {s : St} (h : Reach A s) (t : Nat) : ¬ Chain s t t := by
  have hm : Reach (fun f => ¬ BadO f) s := h.mono fun f hf hb => by
    cases f <;> simp only [BadO] at hb
    · exact hd hf
    · exact ha _ _ hf
  obtain ⟨held, i⟩ := inv_reach (o := True) (g := False) (fun f h => fits_order f h) hm
  intro hc
  obtain ⟨k, hk, hb⟩ := chain_lt i hc
  exact Nat.lt_irrefl _ (hb k hk)

/-- No successful `io_cancel`, no destruction of the queues. -/
def calm : Fn → Bool
  | .aioKernel _ _ | .queuesDtor => false
  | _ => true

example : (∀ r q, ¬ calm (.aioKernel r q) = true) ∧ ¬ calm .queuesDtor = true := by simp [calm]

/-- A thread that cancels a request and one that submits requests, with the same queue. -/
example : ∃ s, Reach (fun f => calm f = true) s ∧ WaitsFor s 1 0 ∧ Free s 0 := by
  obtain ⟨s, h, hw⟩ := run_two (user_threadB calm 60 [f (.cancel 0 5), r, l, r, l, r, l, l]) (user_threadB calm 60 [f (.submit 5), l, l, r, l, l])
    (φ := fun s => waitsB 1 0 s && atB 0 (.token 5) .queues s) (List.replicate 12 0 ++ [1]) (by decide +kernel)
  rw [Bool.and_eq_true] at hw
  obtain ⟨l, hl⟩ := (atB_sound hw.2).1
  refine ⟨s, h, waitsB_sound hw.1, by simp [hl], fun u ⟨m, k, hk, _⟩ => by simp [hl] at hk⟩

/-- A read of the statistics (the constructor of `stats_data`), and a served request. -/
def statsRun : List Act := actions 60 .user [f .snapshot, l, r, n 0, l, l]
def serveRun : List Act := actions 60 .user [f (.serveFile 0 0), l, l, l, l, l, l, l]

/-- **C118 is false** for statistics: `stats_data` copies the counters without their mutexes. -/
theorem C118_false : ∃ s, Reach (fun _ => True) s ∧ Race s (.fwrite 0) :=
  race_of _ (user_thread 60 _ : thread _ serveRun) (user_thread 60 _ : thread _ statsRun) (List.replicate 4 0 ++ List.replicate 4 1) (by decide +kernel)

/-- **C118 is false** for `cancel`, which reads `file_` while the worker resets it. -/
theorem C118_false_file : ∃ s, Reach (fun _ => True) s ∧ Race s (.file 0) :=
  race_of _ worker_fail (user_thread 60 [f (.cancel 0 5), l, l]) (List.replicate 43 0) (by decide +kernel)

/-- **C118 is false** for `poll`, which looks for errors without synchronisation. -/
theorem C118_false_error : ∃ s, Reach (fun _ => True) s ∧ Race s (.error 0) :=
  race_of _ worker_fail (user_thread 60 [f (.poll 0), l]) (List.replicate 35 0 ++ List.replicate 3 1) (by decide +kernel)

/-- **C118 is false** for singletons: the first test of `instance_` is not synchronised with the assignment. -/
theorem C118_false_singleton : ∃ s, Reach (fun _ => True) s ∧ Race s (.inst .stats) :=
  race_of _ (user_thread 60 [f (.get .stats), r, r, l]) (user_thread 60 [f (.get .stats), l, l]) (List.replicate 3 0) (by decide +kernel)

/-- **C118 is false** for the device ids that `create_file` chooses. -/
theorem C118_false_device : ∃ s, Reach (fun _ => True) s ∧ Race s .devId :=
  race_of _ (user_thread 60 [f (.createFile 0), l, l, l, l, l, l, l, l]) (user_thread 60 [f (.createFile 1), l, l, l, l, l, l, l, l]) [0, 0, 1, 1] (by decide +kernel)

/-- **C118 is false** for `memory_file::size`. -/
theorem C118_false_memory : ∃ s, Reach (fun _ => True) s ∧ Race s (.mem 0) :=
  race_of _ (user_thread 60 [f (.setSize 0), r, l]) (user_thread 60 [f (.sizeMem 0), l]) [0, 0] (by decide +kernel)

/-- **C118, partial**: without snapshots of the statistics and `memory_file::size`, all data other than the pointers of singletons, the device ids and the fields
`file_` and `error_` of requests are accessed by one thread at a time. -/
theorem C118_partial {A : Fn → Prop} (ha : ¬ A .snapshot) (hm : ∀ f, ¬ A (.sizeMem f)) {s : St} (h : Reach A s) {x : Fld}
    (h1 : ∀ k, x ≠ .inst k) (h2 : x ≠ .devId) (h3 : ∀ r, x ≠ .file r) (h4 : ∀ r, x ≠ .error r) {t u : Nat}
    (ht : Reads s t x ∨ Writes s t x) (hu : Reads s u x ∨ Writes s u x) : t = u := by
  have hr : Reach (fun f => ¬ BadG f) s := h.mono fun f hf hb => by
    cases f <;> simp only [BadG] at hb
    · exact hm _ hf
    · exact ha hf
  obtain ⟨held, i⟩ := inv_reach (o := False) (g := True) (fun f h ha _ => fits_guard f h ha) hr
  have hg : ∃ m, guard x = some m ∧ wguard x = some m := by
    cases x <;> first | exact ⟨_, rfl, rfl⟩ | exact absurd rfl (h1 _) | exact absurd rfl h2 | exact absurd rfl (h3 _) | exact absurd rfl (h4 _)
  obtain ⟨m, hg, hw⟩ := hg
  have key : ∀ t, Reads s t x ∨ Writes s t x → s.holder m = some t := by
    rintro t (h | h)
    · exact read_guard i hg h
    · exact write_guard i hw h
  have := (key t ht).symm.trans (key u hu)
  exact Option.some.inj this

/-- **C118, partial**: with all functions, device ids and the fields `file_` and `error_` are the only data that two threads may write at once. -/
theorem C118_write_partial {s : St} (h : Reach (fun _ => True) s) {x : Fld} (h2 : x ≠ .devId) (h3 : ∀ r, x ≠ .file r) (h4 : ∀ r, x ≠ .error r) {t u : Nat}
    (ht : Writes s t x) (hu : Writes s u x) : t = u := by
  obtain ⟨held, i⟩ := inv_reach (o := False) (g := False) (fun f h _ _ => fits_write f h) h
  have hg : ∃ m, wguard x = some m := by
    cases x <;> first | exact ⟨_, rfl⟩ | exact absurd rfl h2 | exact absurd rfl (h3 _) | exact absurd rfl (h4 _)
  obtain ⟨m, hw⟩ := hg
  have := (write_guard i hw ht).symm.trans (write_guard i hw hu)
  exact Option.some.inj this

/-- No snapshots of the statistics, no `memory_file::size`. -/
def quiet : Fn → Bool
  | .snapshot | .sizeMem _ => false
  | _ => true

example : ¬ quiet .snapshot = true ∧ ∀ f, ¬ quiet (.sizeMem f) = true := by simp [quiet]

/-- A thread writes the counters while another one waits for their mutex. -/
example : ∃ s, Reach (fun f => quiet f = true) s ∧ Writes s 0 (.fwrite 0) ∧ WaitsFor s 1 0 := by
  obtain ⟨s, h, hw⟩ := run_two (user_threadB quiet 60 [f (.serveFile 1 0), l, l, l, l, l, l, l]) (user_threadB quiet 60 [f (.serveFile 0 0), l, l, l, l, l, l, l])
    (φ := fun s => waitsB 1 0 s && (s.rem 0).head? == some (.wr (.fwrite 0))) ([1, 1] ++ List.replicate 4 0) (by decide +kernel)
  simp only [Bool.and_eq_true, beq_iff_eq] at hw
  exact ⟨s, h, head_cons hw.2, waitsB_sound hw.1⟩

end Foxxll.Locks
