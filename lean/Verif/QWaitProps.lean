import Verif.QWaitInv
/-! Properties C163 (waiting for the end of a queue) and C164 (creating a queue). -/
namespace Verif.QWait

/-- the creator has been told -/
def Ph.toldC : Ph → Bool
  | .loop | .ended => true
  | .drain late | .finished late | .notify late _ | .nlocked late _ _ | .ntold late _ _ => !late
  | _ => false

def Cr.isTold : Cr → Bool
  | .waits => false
  | _ => true

/-- `fini` and the creator -/
structure Inv2 (s : St) : Prop where
  fini : s.fini = if s.ph = .failed ∨ s.ph.late = true then 1 else 0
  cr : s.cr.isTold = s.ph.toldC
  ok : s.ph ≠ .ended → s.cr ≠ .told false ∧ s.cr ≠ .returned false
  term : s.ph.late = true ∨ (∃ b, s.ph = .drain b) → s.ph ≠ .ended → s.term = true
  okterm : s.ph = .ended → s.cr ≠ .told false → s.cr ≠ .returned false → s.term = true

theorem inv2_init : Inv2 St.init := by
  constructor <;> simp [St.init, Ph.late, Ph.toldC, Cr.isTold]

set_option maxHeartbeats 1000000 in
theorem inv2_step {s s' : St} {a : Act} (h : Inv2 s) (hs : step s a = some s') : Inv2 s' := by
  obtain ⟨h1, h2, h3, h4, h5⟩ := h
  cases a <;> simp only [step] at hs <;> (repeat' split at hs) <;> (try cases hs)
  all_goals constructor <;> simp only <;> grind [Ph.late, Ph.toldC, Cr.isTold]

theorem reach_inv {s : St} (h : Reach s) : Inv s ∧ Inv2 s := by
  induction h with
  | init => exact ⟨inv_init, inv2_init⟩
  | step _ hs ih => exact ⟨inv_step ih.1 hs, inv2_step ih.2 hs⟩

/-! ## C163 -/

/-- C163 (safety). In every interleaving of any number of waiting, destroying and other threads with the life of the queue: neither a waiter nor
    another user touches the queue's memory after it was freed, and the queue's thread never touches the entry of a waiter that
    has returned; and a waiting call returns only after the queue has done everything: its handle does not resolve any more, its `fini` has been called
    (once), its memory has been freed. -/
theorem C163_safe {s : St} (h : Reach s) :
    s.uaf = false ∧ s.dead = false ∧ ∀ t, s.pc t = .returned → s.alive = false ∧ s.installed = false ∧ s.fini = 1 := by
  obtain ⟨hi, hj⟩ := reach_inv h
  refine ⟨hi.noUaf, hi.noDead, fun t ht => ?_⟩
  have ha : s.ph.after = true := by
    cases hb : s.ph.after with
    | true => rfl
    | false => have := hi.before hb t; rw [(hi.ret t ht).1] at this; cases this
  have hl : s.ph.late = true ∧ s.ph.obj = false ∧ s.ph.named = false := by
    revert ha; cases s.ph <;> simp [Ph.after, Ph.late, Ph.obj, Ph.named]
  exact ⟨by rw [hi.alive, hl.2.1], by rw [hi.inst, hl.2.2], by rw [hj.fini, if_pos (.inr hl.1)]⟩

/-- what threads do by themselves: everything but new calls, other users, and the queue's functions asking for its end; wake-ups only when signalled -/
def Act.own : Act → Bool
  | .spurious _ | .get _ _ | .oGet | .oDestroy | .oPut | .selfDestroy => false
  | _ => true

/-- C163 (nobody waits for ever, first half). When nothing can go on and no other user holds a reference, then either the queue is running and nobody
    has asked for its end, or it has ended, and every waiting call, and the creating one, has returned. -/
theorem C163_not_stuck {s : St} (h : Reach s) (hq : ∀ a, a.own = true → step s a = none) (ho : s.others = 0) :
    (∃ ok, s.cr = .returned ok) ∧
    ((s.ph = .loop ∧ s.term = false) ∨ (s.ph = .ended ∧ ∀ t, s.pc t = .out ∨ s.pc t = .returned)) := by
  obtain ⟨hi, hj⟩ := reach_inv h
  have q1 := fun t => hq (.add t) rfl
  have q2 := fun t => hq (.ask t) rfl
  have q3 := fun t => hq (.put t) rfl
  have q4 := fun t => hq (.lock t) rfl
  have q5 := fun t => hq (.test t) rfl
  have q6 := fun t => hq (.wake t) rfl
  have q7 := hq .nTell rfl
  have q8 := hq .nUnlock rfl
  have q9 := hq .nLock rfl
  have q10 := hq .nEnd rfl
  have q11 := hq .free rfl
  have q12 := hq .drained rfl
  have q13 := hq .uninstall rfl
  have q14 := hq .tell rfl
  have q15 := hq (.initDone true) rfl
  have q16 := hq (.create true) rfl
  have q17 := hq .cRead rfl
  have hno : ∀ t, s.pc t = .out ∨ s.pc t = .returned ∨ s.pc t = .waits ∨ (s.pc t = .sleeps ∧ s.sig t = false) := by
    intro t
    have a1 := q1 t; have a2 := q2 t; have a3 := q3 t; have a5 := q5 t; have a6 := q6 t
    simp only [step] at a1 a2 a3 a5 a6
    cases hp : s.pc t <;> simp [hp] at a1 a2 a3 a5 a6 ⊢
    · grind
    · exact a6
  have hcur : s.ph.cur = none := by
    simp only [step] at q7 q8
    cases hp : s.ph <;> simp [hp] at q7 q8 <;> rfl
  have hwait : ∀ t, s.pc t ≠ .waits := by
    intro t ht
    have a4 := q4 t
    simp only [step] at a4
    cases hm : s.mtx t with
    | none => simp [ht, hm] at a4
    | some b =>
      cases b with
      | true => rw [(hi.cur t).1 hm] at hcur; cases hcur
      | false => rw [(hi.lck t).1 hm] at ht; cases ht
  have hhold : s.holders = [] := by
    cases hl : s.holders with
    | nil => rfl
    | cons t l =>
      have := (hi.holders t).1 (by rw [hl]; simp)
      rcases hno t with h | h | h | h
      · rw [h] at this; cases this
      · rw [h] at this; cases this
      · rw [h] at this; cases this
      · rw [h.1] at this; cases this
  have hph : (s.ph = .loop ∧ s.term = false) ∨ s.ph = .ended := by
    have hu := hi.usage
    simp only [step] at q7 q8 q9 q10 q11 q12 q13 q14 q15 q16
    cases hp : s.ph <;> simp [hp] at q7 q8 q9 q10 q11 q12 q13 q14 q15 q16 ⊢
    · exact q13
    · simp [hp, Ph.obj, hhold, ho] at hu; omega
    · rename_i late l
      cases l with
      | nil => simp at q10
      | cons t l =>
        simp at q9
        have hm : s.mtx t ≠ none := q9
        cases hm' : s.mtx t with
        | none => exact absurd hm' hm
        | some b =>
          cases b with
          | true => rw [(hi.cur t).1 hm'] at hcur; cases hcur
          | false =>
            have := (hi.lck t).1 hm'
            rcases hno t with h | h | h | h
            · rw [h] at this; cases this
            · rw [h] at this; cases this
            · rw [h] at this; cases this
            · rw [h.1] at this; cases this
  have hcr : ∃ ok, s.cr = .returned ok := by
    have : ∃ ok, s.cr = .told ok ∨ s.cr = .returned ok := by
      have ht : s.cr.isTold = true := by
        rw [hj.cr]
        rcases hph with h | h
        · rw [h.1]; rfl
        · rw [h]; rfl
      revert ht
      cases s.cr <;> simp [Cr.isTold]
    obtain ⟨ok, h | h⟩ := this
    · simp [step, h] at q17
    · exact ⟨ok, h⟩
  refine ⟨hcr, ?_⟩
  rcases hph with h | h
  · exact .inl h
  · right
    refine ⟨h, fun t => ?_⟩
    rcases hno t with h1 | h1 | h1 | h1
    · exact .inl h1
    · exact .inr h1
    · exact absurd h1 (hwait t)
    · have hl : t ∈ s.list := (hi.list t).2 (by rw [h1.1]; rfl)
      rcases hi.todoAll (by rw [h]; rfl) t hl with hr | hr
      · have := hi.slp t h1.1 hr; rw [h1.2] at this; cases this
      · rw [h] at hr; cases hr

/-! ### Termination -/

/-- work left for a waiter -/
def Pc.work (p : Pc) (sig : Bool) : Nat :=
  match p with
  | .got _ => 20
  | .added _ => 6
  | .asked => 5
  | .waits => 4
  | .locked => 3
  | .sleeps => if sig then 5 else 2
  | .out | .returned => 0

/-- work left for the queue's thread; `n`: waiters linked -/
def Ph.work (n : Nat) : Ph → Nat
  | .boot => 10 * n + 9
  | .initing => 10 * n + 8
  | .ready => 10 * n + 7
  | .loop => 10 * n + 6
  | .drain _ => 10 * n + 5
  | .finished _ => 10 * n + 4
  | .failed => 1
  | .notify _ l => 10 * l.length + 1
  | .nlocked _ _ l => 10 * l.length + 9
  | .ntold _ _ l => 10 * l.length + 2
  | .ended => 0

def Cr.work : Cr → Nat
  | .waits => 2
  | .told _ => 1
  | .returned _ => 0

def wsum (s : St) (ts : List Nat) : Nat := (ts.map fun t => (s.pc t).work (s.sig t)).sum

def mu (s : St) (ts : List Nat) : Nat := wsum s ts + s.ph.work s.list.length + s.cr.work

theorem wsum_same {s s' : St} {ts : List Nat} (h : ∀ t ∈ ts, (s'.pc t).work (s'.sig t) = (s.pc t).work (s.sig t)) : wsum s' ts = wsum s ts := by
  unfold wsum
  exact congrArg List.sum (List.map_congr_left h)

theorem wsum_one {s s' : St} {t : Nat} : ∀ {ts : List Nat}, ts.Nodup → t ∈ ts →
    (∀ u, u ≠ t → (s'.pc u).work (s'.sig u) = (s.pc u).work (s.sig u)) →
    wsum s' ts + (s.pc t).work (s.sig t) = wsum s ts + (s'.pc t).work (s'.sig t)
  | u :: ts, hn, hm, h => by
    rw [List.nodup_cons] at hn
    by_cases hu : u = t
    · subst hu
      have := wsum_same (s := s) (s' := s') (ts := ts) (fun v hv => h v (fun e => hn.1 (e ▸ hv)))
      simp only [wsum, List.map_cons, List.sum_cons] at this ⊢
      omega
    · have := wsum_one (s := s) (s' := s') hn.2 (by grind) h
      have h1 := h u hu
      simp only [wsum, List.map_cons, List.sum_cons] at this ⊢
      omega

/-- threads outside `ts` have not called -/
def Covers (s : St) (ts : List Nat) : Prop := ts.Nodup ∧ ∀ t, s.pc t ≠ .out → t ∈ ts

theorem cover {s : St} (h : Reach s) : ∃ ts, Covers s ts := by
  induction h with
  | init => exact ⟨[], by simp, by simp [St.init]⟩
  | @step s s' a _ hs ih =>
    obtain ⟨ts, h1, h2⟩ := ih
    by_cases ha : ∃ t i, a = .get t i
    · obtain ⟨t, i, rfl⟩ := ha
      by_cases ht : t ∈ ts
      · refine ⟨ts, h1, fun u hu => ?_⟩
        simp only [step] at hs
        split at hs <;> cases hs
        by_cases e : u = t
        · exact e ▸ ht
        · exact h2 u (by simpa [upd, e] using hu)
      · refine ⟨t :: ts, List.nodup_cons.2 ⟨ht, h1⟩, fun u hu => ?_⟩
        simp only [step] at hs
        split at hs <;> cases hs
        by_cases e : u = t
        · simp [e]
        · exact List.mem_cons_of_mem _ (h2 u (by simpa [upd, e] using hu))
    · refine ⟨ts, h1, fun u hu => h2 u fun h0 => hu ?_⟩
      cases a <;> simp only [step] at hs <;> (repeat' split at hs) <;> (try cases hs) <;> grind [upd]

set_option maxHeartbeats 1000000 in
theorem mu_step {s s' : St} {a : Act} {ts : List Nat} (hr : Inv2 s) (hc : Covers s ts) (ho : a.own = true) (hs : step s a = some s') :
    Covers s' ts ∧ mu s' ts < mu s ts := by
  have one : ∀ t, s.pc t ≠ .out → (∀ u, u ≠ t → (s'.pc u).work (s'.sig u) = (s.pc u).work (s.sig u)) →
      wsum s' ts + (s.pc t).work (s.sig t) = wsum s ts + (s'.pc t).work (s'.sig t) := fun t h => wsum_one hc.1 (hc.2 t h)
  have same : (∀ t, (s'.pc t).work (s'.sig t) = (s.pc t).work (s.sig t)) → wsum s' ts = wsum s ts := fun h => wsum_same fun t _ => h t
  have cov : (∀ u, s.pc u = .out → s'.pc u = .out) → Covers s' ts := fun h => ⟨hc.1, fun t ht => hc.2 t fun h0 => ht (h t h0)⟩
  cases a with
  | nTell =>
    simp only [step] at hs
    split at hs <;> cases hs
    rename_i late t l hp
    refine ⟨cov (fun _ h => h), ?_⟩
    by_cases hsl : s.pc t = .sleeps
    · have h := one t (by simp [hsl]) (by intro u hu; simp [hsl, upd, hu])
      simp only [mu, Ph.work, hp]
      simp [hsl, upd, Pc.work] at h
      simp [hsl]
      unfold upd at h ⊢
      generalize wsum _ ts = w' at h ⊢
      split at h <;> omega
    · have h := same (by intro u; simp [hsl])
      simp only [mu, Ph.work, hp]
      simp [hsl] at h
      simp [hsl]
      omega
  | add t =>
    simp only [step] at hs
    split at hs <;> cases hs
    rename_i issue hp
    refine ⟨cov (by intro u hu; grind [upd]), ?_⟩
    have h := one t (by simp [hp]) (by intro u hu; simp [upd, hu])
    simp only [hp, upd, Pc.work, if_true] at h
    simp only [mu, upd, List.length_append, List.length_singleton]
    have hw : s.ph.work (s.list.length + 1) ≤ s.ph.work s.list.length + 10 := by
      cases s.ph <;> simp [Ph.work] <;> omega
    omega
  | spurious t => cases ho
  | get t i => cases ho
  | oGet => cases ho
  | oDestroy => cases ho
  | oPut => cases ho
  | selfDestroy => cases ho
  | create ok =>
    simp only [step] at hs
    (repeat' split at hs) <;> cases hs
    all_goals
      refine ⟨cov (fun _ h => h), ?_⟩
      have h := same (fun _ => rfl)
      simp only [mu, h]
      simp_all [Ph.work, Cr.work]
      try omega
  | initDone ok =>
    simp only [step] at hs
    (repeat' split at hs) <;> cases hs
    all_goals
      refine ⟨cov (fun _ h => h), ?_⟩
      have h := same (fun _ => rfl)
      simp only [mu, h]
      simp_all [Ph.work, Cr.work]
      try omega
  | tell =>
    simp only [step] at hs
    (repeat' split at hs) <;> cases hs
    all_goals
      refine ⟨cov (fun _ h => h), ?_⟩
      have h := same (fun _ => rfl)
      have hcr := hr.cr
      simp only [mu, h]
      cases hw : s.cr <;> simp_all [Ph.work, Cr.work, Ph.toldC, Cr.isTold] <;> omega
  | uninstall =>
    simp only [step] at hs
    (repeat' split at hs) <;> cases hs
    all_goals
      refine ⟨cov (fun _ h => h), ?_⟩
      have h := same (fun _ => rfl)
      simp only [mu, h]
      simp_all [Ph.work, Cr.work]
      try omega
  | drained =>
    simp only [step] at hs
    (repeat' split at hs) <;> cases hs
    all_goals
      refine ⟨cov (fun _ h => h), ?_⟩
      have h := same (fun _ => rfl)
      simp only [mu, h]
      simp_all [Ph.work, Cr.work]
      try omega
  | free =>
    simp only [step] at hs
    (repeat' split at hs) <;> cases hs
    all_goals
      refine ⟨cov (fun _ h => h), ?_⟩
      have h := same (fun _ => rfl)
      simp only [mu, h]
      simp_all [Ph.work, Cr.work]
      try omega
  | nLock =>
    simp only [step] at hs
    (repeat' split at hs) <;> cases hs
    all_goals
      refine ⟨cov (fun _ h => h), ?_⟩
      have h := same (fun _ => rfl)
      simp only [mu, h]
      simp_all [Ph.work, Cr.work]
      try omega
  | nUnlock =>
    simp only [step] at hs
    (repeat' split at hs) <;> cases hs
    all_goals
      refine ⟨cov (fun _ h => h), ?_⟩
      have h := same (fun _ => rfl)
      simp only [mu, h]
      simp_all [Ph.work, Cr.work]
      try omega
  | nEnd =>
    simp only [step] at hs
    (repeat' split at hs) <;> cases hs
    all_goals
      refine ⟨cov (fun _ h => h), ?_⟩
      have h := same (fun _ => rfl)
      have hcr := hr.cr
      simp only [mu, h]
      cases hw : s.cr <;> simp_all [Ph.work, Cr.work, Ph.toldC, Cr.isTold] <;> omega
  | cRead =>
    simp only [step] at hs
    (repeat' split at hs) <;> cases hs
    all_goals
      refine ⟨cov (fun _ h => h), ?_⟩
      have h := same (fun _ => rfl)
      simp only [mu, h]
      simp_all [Ph.work, Cr.work]
      try omega
  | ask t =>
    simp only [step] at hs
    (repeat' split at hs) <;> cases hs
    all_goals
      refine ⟨cov (by intro u hu; grind [upd]), ?_⟩
      have h := one t (by grind) (by intro u hu; simp [upd, hu])
      simp_all [mu, upd, Pc.work, Ph.work, Cr.work]
      try omega
  | put t =>
    simp only [step] at hs
    (repeat' split at hs) <;> cases hs
    all_goals
      refine ⟨cov (by intro u hu; grind [upd]), ?_⟩
      have h := one t (by grind) (by intro u hu; simp [upd, hu])
      simp_all [mu, upd, Pc.work, Ph.work, Cr.work]
      try omega
  | lock t =>
    simp only [step] at hs
    (repeat' split at hs) <;> cases hs
    all_goals
      refine ⟨cov (by intro u hu; grind [upd]), ?_⟩
      have h := one t (by grind) (by intro u hu; simp [upd, hu])
      simp_all [mu, upd, Pc.work, Ph.work, Cr.work]
      try omega
  | test t =>
    simp only [step] at hs
    (repeat' split at hs) <;> cases hs
    all_goals
      refine ⟨cov (by intro u hu; grind [upd]), ?_⟩
      have h := one t (by grind) (by intro u hu; simp [upd, hu])
      simp_all [mu, upd, Pc.work, Ph.work, Cr.work]
      try omega
  | wake t =>
    simp only [step] at hs
    (repeat' split at hs) <;> cases hs
    all_goals
      refine ⟨cov (by intro u hu; grind [upd]), ?_⟩
      have h := one t (by grind) (by intro u hu; simp [upd, hu])
      simp_all [mu, upd, Pc.work, Ph.work, Cr.work]
      try omega

/-- C163 (nobody waits for ever, second half). From every reachable state only boundedly many steps are possible without new calls, other users,
    or spurious wake-ups: the threads cannot go round in circles. -/
theorem C163_terminates {s : St} (h : Reach s) :
    ∃ N, ∀ (l : List Act) (s' : St), (∀ a ∈ l, a.own = true) → run s l = some s' → l.length ≤ N := by
  obtain ⟨ts, hc⟩ := cover h
  refine ⟨mu s ts, ?_⟩
  intro l
  induction l generalizing s with
  | nil => intro _ _ _; simp
  | cons a l ih =>
    intro s' hl hr
    simp only [run] at hr
    cases hs : step s a with
    | none => simp [hs] at hr
    | some s1 =>
      simp only [hs, Option.bind_some] at hr
      obtain ⟨hc1, hlt⟩ := mu_step (reach_inv h).2 hc (hl a (by simp)) hs
      have := ih (.step h hs) hc1 s' (fun b hb => hl b (by simp [hb])) hr
      simp only [List.length_cons]
      omega

theorem reach_run {s s' : St} (h : Reach s) : ∀ (l : List Act), run s l = some s' → Reach s' := by
  intro l
  induction l generalizing s with
  | nil => intro hr; cases hr; exact h
  | cons a l ih =>
    intro hr
    simp only [run] at hr
    cases hs : step s a with
    | none => simp [hs] at hr
    | some s1 => simp only [hs, Option.bind_some] at hr; exact ih (.step h hs) hr

/-- the request to end is never taken back -/
theorem term_mono {s s' : St} {a : Act} (ht : s.term = true) (hs : step s a = some s') : s'.term = true := by
  cases a <;> simp only [step] at hs <;> (repeat' split at hs) <;> (try cases hs) <;> grind

/-- own steps leave other users alone -/
theorem own_others {s s' : St} {a : Act} (ha : a.own = true) (hs : step s a = some s') : s'.others = s.others := by
  cases a <;> simp only [Act.own, Bool.false_eq_true] at ha <;> simp only [step] at hs <;> (repeat' split at hs) <;> (try cases hs) <;> rfl

/-- C163 (liveness, put together). Once the end of a queue was asked for and other users have given their references back, every way of going on ends,
    and when it ends, the queue has ended, every waiting call has returned, and `fini` has been called once. -/
theorem C163_all_return {s s' : St} (h : Reach s) (ht : s.term = true) (ho : s.others = 0) (l : List Act) (hl : ∀ a ∈ l, a.own = true)
    (hr : run s l = some s') (hmax : ∀ a, a.own = true → step s' a = none) :
    s'.ph = .ended ∧ s'.fini = 1 ∧ s'.alive = false ∧ ∀ t, s'.pc t = .out ∨ s'.pc t = .returned := by
  have key : s'.term = true ∧ s'.others = 0 := by
    clear hmax h
    induction l generalizing s with
    | nil => cases hr; exact ⟨ht, ho⟩
    | cons a l ih =>
      simp only [run] at hr
      cases hs : step s a with
      | none => simp [hs] at hr
      | some s1 =>
        simp only [hs, Option.bind_some] at hr
        exact ih (term_mono ht hs) ((own_others (hl a (by simp)) hs).trans ho) (fun b hb => hl b (by simp [hb])) hr
  have hR := reach_run h l hr
  obtain ⟨_, hh⟩ := C163_not_stuck hR hmax key.2
  rcases hh with hh | hh
  · rw [key.1] at hh; cases hh.2
  · obtain ⟨hi, hj⟩ := reach_inv hR
    refine ⟨hh.1, ?_, ?_, hh.2⟩
    · rw [hj.fini, hh.1]; simp [Ph.late]
    · rw [hi.alive, hh.1]; rfl

/-- C163 (who may call). A handle that does not resolve: EINVAL.  The queue's own functions: EBUSY for a wait, whatever else is given.  A queue whose
    destruction is not allowed: EPERM for the public destroy and destroy-and-wait, but a plain wait is let in. -/
theorem C163_admission (found self na issue check : Bool) :
    (found = false → waitAdmit found self na issue check = some .einval ∧ destroyAdmit found na check = some .einval) ∧
    (found = true → self = true → waitAdmit found self na issue check = some .ebusy) ∧
    (found = true → self = false → na = true → check = true →
      waitAdmit found self na true check = some .eperm ∧ destroyAdmit found na check = some .eperm ∧ waitAdmit found self na false check = none) ∧
    (found = true → self = false → (na = false ∨ check = false) → waitAdmit found self na issue check = none ∧ destroyAdmit found na check = none) := by
  cases found <;> cases self <;> cases na <;> cases issue <;> cases check <;> simp [waitAdmit, destroyAdmit]

/-- two waiters, one of them asking for the end while the other already sleeps, another user, and a late lock: both return -/
def sample : List Act :=
  [.create true, .initDone true, .tell, .cRead, .get 1 false, .add 1, .ask 1, .put 1, .lock 1, .test 1, .oGet, .get 2 true, .add 2, .ask 2,
    .uninstall, .oPut, .put 2, .drained, .free, .nLock, .nTell, .nUnlock, .wake 1, .lock 1, .test 1, .lock 2, .test 2, .nLock, .nTell, .nUnlock, .nEnd,
    .wake 2, .lock 2, .test 2]

example : ((run .init sample).map fun s => decide (s.pc 1 = .returned ∧ s.pc 2 = .returned ∧ s.ph = .ended ∧ s.fini = 1 ∧ s.cr = .returned true)) = some true := by
  decide +kernel

/-- the hypotheses of `C163_all_return` are met half way through that run -/
example : ((run .init (sample.take 16)).map fun s => decide (s.term = true ∧ s.others = 0 ∧ s.pc 1 = .sleeps ∧ s.pc 2 = .asked)) = some true ∧
    (sample.drop 16).all Act.own = true := by
  decide +kernel

/-! ## C164 -/

/-- the creator has the queue and has not read its handle yet -/
def Cr.pending : Cr → Bool
  | .told true => true
  | _ => false

/-- C164 (the answer). The creating call never returns success unless `init` has succeeded and the queue is running or has ended after running; it returns
    failure only after the queue's thread is through; and `fini` is called exactly once, before the queue ends, whether or not `init` has succeeded. -/
theorem C164_answer {s : St} (h : Reach s) :
    (s.cr = .waits → s.ph ≠ .loop ∧ s.ph ≠ .ended) ∧
    (s.cr = .told false ∨ s.cr = .returned false → s.ph = .ended ∧ s.fini = 1 ∧ s.alive = false) ∧
    s.fini ≤ 1 ∧ (s.ph = .ended → s.fini = 1) := by
  obtain ⟨hi, hj⟩ := reach_inv h
  have e : ∀ q : s.ph = .ended, s.fini = 1 ∧ s.alive = false := fun q => ⟨by rw [hj.fini, q]; simp [Ph.late], by rw [hi.alive, q]; rfl⟩
  refine ⟨fun hw => ?_, fun hf => ?_, ?_, fun q => (e q).1⟩
  · have := hj.cr
    rw [hw] at this
    constructor <;> intro q <;> rw [q] at this <;> cases this
  · have q : s.ph = .ended := by
      refine Classical.byContradiction fun q => ?_
      obtain ⟨h1, h2⟩ := hj.ok q
      rcases hf with hf | hf
      · exact h1 hf
      · exact h2 hf
    exact ⟨q, e q⟩
  · rw [hj.fini]; split <;> omega

/-- the runs in which nobody asks for the end of the queue until its creator has read the handle -/
inductive ReachQ : St → Prop
  | init : ReachQ St.init
  | step {s s' : St} {a : Act} : ReachQ s → step s a = some s' → (s'.cr.pending = true → s'.term = false) → ReachQ s'

theorem ReachQ.reach {s : St} (h : ReachQ s) : Reach s := by
  induction h with
  | init => exact .init
  | step _ hs _ ih => exact .step ih hs

theorem ReachQ.calm {s : St} (h : ReachQ s) : s.cr.pending = true → s.term = false := by
  cases h with
  | init => simp [St.init, Cr.pending]
  | step _ _ hq => exact hq

/-- C164 (the handle, partial). As long as nobody asks for the end of a queue before its creating call has read the handle, the creating call reads
    it from memory that exists. -/
theorem C164_partial {s : St} (h : ReachQ s) : s.uafC = false := by
  induction h with
  | init => rfl
  | @step s s' a hs0 hs _ ih =>
    by_cases ha : a = .cRead
    · subst ha
      simp only [step] at hs
      split at hs <;> cases hs
      rename_i ok hc _
      cases ok with
      | false => simp [ih]
      | true =>
        have hp : s.cr.pending = true := by rw [hc]; rfl
        have ht := hs0.calm hp
        obtain ⟨hi, hj⟩ := reach_inv hs0.reach
        have hcr := hj.cr
        have hterm := hj.term
        rw [hc] at hcr
        have hal : s.alive = true := by
          rw [hi.alive]
          have hend : s.ph ≠ .ended := by
            intro he
            have := hj.okterm he (by simp [hc]) (by simp [hc])
            rw [ht] at this
            cases this
          revert hcr hterm hend
          cases s.ph <;> simp_all [Ph.toldC, Cr.isTold, Ph.late, Ph.obj]
        simp [ih, hal]
    · have : s'.uafC = s.uafC := by
        cases a <;> simp only [step] at hs <;> (repeat' split at hs) <;> (try cases hs) <;> first | rfl | exact absurd rfl ha
      rw [this, ih]

/-- C164 (violated). The queue's thread tells the creator the address of the queue object and goes on; the creator reads the handle out of that
    object afterwards, without a reference.  A queue whose `init` callback (or first function) asks for its own end is destroyed in between, and the
    creating call reads freed memory and returns what it finds there as a success. -/
theorem C164_uaf : ∃ l s, run .init l = some s ∧ s.uafC = true ∧ s.cr = .returned true ∧ s.ph = .ended := by
  refine ⟨[.create true, .selfDestroy, .initDone true, .tell, .uninstall, .drained, .free, .nEnd, .cRead], ?_⟩
  simp [run, step, St.init]

/-- the runs of `C164_partial` include a complete life, with a waiter asking for the end after the creating call has returned -/
example : ∃ s, ReachQ s ∧ s.cr = .returned true ∧ s.ph = .ended ∧ s.pc 1 = .returned := by
  have go : ∀ (l : List Act) (s : St), ReachQ s → (∀ n, ∀ s', run s (l.take n) = some s' → s'.cr.pending = true → s'.term = false) →
      ∀ s', run s l = some s' → ReachQ s' := by
    intro l
    induction l with
    | nil => intro s h _ s' hr; cases hr; exact h
    | cons a l ih =>
      intro s h hc s' hr
      simp only [run] at hr
      cases hs : step s a with
      | none => simp [hs] at hr
      | some s1 =>
        simp only [hs, Option.bind_some] at hr
        refine ih s1 (.step h hs (hc 1 s1 (by simp [run, hs]))) (fun n s2 h2 => hc (n + 1) s2 (by simp [run, hs, h2])) s' hr
  let l : List Act := [.create true, .initDone true, .tell, .cRead, .get 1 true, .add 1, .ask 1, .put 1, .uninstall, .drained, .free, .nLock, .nTell,
    .nUnlock, .lock 1, .test 1, .nEnd]
  have hsome : ∃ s, run .init l = some s ∧ s.cr = .returned true ∧ s.ph = .ended ∧ s.pc 1 = .returned := by
    simp [l, run, step, St.init, upd]
  obtain ⟨s, h1, h2⟩ := hsome
  refine ⟨s, go l _ .init ?_ s h1, h2⟩
  intro n s' hr hp
  have hb : (List.range 18).all (fun n => match run .init (l.take n) with | some s => !s.cr.pending || !s.term | none => true) = true := by decide +kernel
  have hn : run .init (l.take (min n 17)) = some s' := by
    by_cases h : n ≤ 17
    · rw [Nat.min_eq_left h]; exact hr
    · rw [Nat.min_eq_right (by omega), ← hr, List.take_of_length_le (show l.length ≤ 17 by decide), List.take_of_length_le (show l.length ≤ n by
        have : l.length = 17 := rfl
        omega)]
  have := List.all_eq_true.1 hb (min n 17) (by simp; omega)
  rw [hn] at this
  simpa [hp] using this

/-- `__q_create` or `init` has failed and the creator does not know yet -/
def Ph.bad : Ph → Bool
  | .failed => true
  | .drain late | .finished late | .notify late _ | .nlocked late _ _ | .ntold late _ _ => late
  | _ => false

/-- the answer of the creating call is a failure exactly when the queue object could not be made or `init` has failed -/
def asked (l : List Act) : Bool := l.contains (.create false) || l.contains (.initDone false)

theorem C164_result : ∀ (l : List Act) (s : St), run .init l = some s → ∀ ok, s.cr = .told ok ∨ s.cr = .returned ok → ok = !asked l := by
  -- stated over the run so far, read backwards
  have key : ∀ (l l0 : List Act) (s s' : St), run s l = some s' →
      ((s.cr = .waits → (asked l0 = true ↔ s.ph.bad = true)) ∧ (∀ ok, s.cr = .told ok ∨ s.cr = .returned ok → ok = !asked l0) ∧
        s.cr.isTold = s.ph.toldC ∧ (asked l0 = true → s.ph ≠ .boot ∧ s.ph ≠ .initing)) →
      (∀ ok, s'.cr = .told ok ∨ s'.cr = .returned ok → ok = !asked (l0 ++ l)) := by
    intro l
    induction l with
    | nil => intro l0 s s' hr h; cases hr; simpa using h.2.1
    | cons a l ih =>
      intro l0 s s' hr h
      simp only [run] at hr
      cases hs : step s a with
      | none => simp [hs] at hr
      | some s1 =>
        simp only [hs, Option.bind_some] at hr
        have e : l0 ++ a :: l = (l0 ++ [a]) ++ l := by simp
        rw [e]
        refine ih _ s1 s' hr ?_
        have ea : asked (l0 ++ [a]) = (asked l0 || a == .create false || a == .initDone false) := by
          simp [asked]
          grind
        obtain ⟨h1, h2, h3, h4⟩ := h
        rw [ea]
        cases a <;> simp only [step] at hs <;> (repeat' split at hs) <;> (try cases hs) <;> grind [Ph.bad, Ph.toldC, Cr.isTold]
  intro l s hr
  exact key l [] _ s hr (by simp [St.init, asked, Ph.bad, Ph.toldC, Cr.isTold])

end Verif.QWait
