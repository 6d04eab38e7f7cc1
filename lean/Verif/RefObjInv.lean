import Verif.RefObj
/-
  Invariants of the model of Verif/RefObj.lean.
-/
namespace Verif.RefObj

def Fr.isCb : Fr → Bool
  | .holdCb => true | .rdCb _ => true | .wrCb _ => true | .qCb => true | _ => false
/-- counted in the read part of lock_count -/
def Fr.isRd : Fr → Bool
  | .rdWait => true | .rdChk => true | .rdCb true => true | _ => false
def Fr.isRdWait : Fr → Bool
  | .rdWait => true | _ => false
def Fr.isWr : Fr → Bool
  | .wrWait _ => true | .wrChk _ => true | .wrCb _ => true | _ => false
/-- has the object's lock for writing -/
def Fr.isW : Fr → Bool
  | .wrChk _ => true | .wrCb _ => true | .dSet _ _ => true | _ => false
def Fr.upAcq : Fr → Bool
  | .wrChk true => true | .wrCb true => true | _ => false
def Fr.isQ : Fr → Bool
  | .qChk => true | .qCb => true | _ => false
def Fr.counted : Fr → Bool
  | .dGot _ => false | .dMark _ _ => false | .dWait _ _ => false | .dSet _ _ => false | .dAfter _ _ _ => false
  | .dSpin _ => false | .fin (.destroy _) _ => false | _ => true
/-- has removed the table entry and not yet put the creator's reference -/
def Fr.pend : Fr → Bool
  | .dMark true _ => true | .dWait true _ => true | .dSet true _ => true | .dAfter true _ _ => true | _ => false
def Fr.isSpin : Fr → Bool
  | .dSpin _ => true | _ => false
/-- past the point where the flag is set -/
def Fr.past : Fr → Bool
  | .dAfter _ _ _ => true | .dSpin _ => true | .fin (.destroy _) .ok => true | _ => false
def Fr.own : Fr → Option Nat
  | .dMark _ o => some o | .dWait _ o => some o | .dSet _ o => some o | .dAfter _ o _ => some o
  | .dSpin o => some o | _ => none
/-- runs only inside a function bound to the object, of a synchronous object -/
def Fr.needQ : Fr → Bool
  | .rdCb false => true | .wrWait true => true | .wrChk true => true | .wrCb true => true | _ => false

def loc (cfg : Cfg) (f : Fr) (fs : List Fr) : Prop :=
  (f.needQ = true → cfg.async = false ∧ Fr.qCb ∈ fs) ∧
  (∀ o, f.own = some o → cfg.callerFree = true → o = fs.length)

def WF (cfg : Cfg) : List Fr → Prop
  | [] => True
  | f :: fs => (∀ g ∈ fs, g.isCb = true) ∧ loc cfg f fs ∧ WF cfg fs

/-- What a thread may be in once the object is destroyed. -/
def Fr.afterOk (cfg : Cfg) : Fr → Bool
  | .rdCb _ => false | .wrCb _ => false | .qCb => cfg.async | _ => true

structure ThInv (cfg : Cfg) (destroyed : Bool) (t : Th) : Prop where
  wf : WF cfg t.stack
  rd : t.rd = t.stack.countP Fr.isRd
  wr : (if t.wr then 1 else 0) = t.stack.countP Fr.isWr
  xr : t.wr = true → t.rd = 0
  rw : (if t.rawW then 1 else 0) = t.stack.countP Fr.isW
  raw : t.raw + t.stack.countP Fr.upAcq + t.stack.countP Fr.isRdWait =
    (if t.rd = 0 then 0 else 1) + (if cfg.async then 0 else t.stack.countP Fr.isQ)
  wt : 0 < t.stack.countP Fr.isRdWait → t.rd = 1
  get : cfg.callerFree = true → t.get = t.stack.countP Fr.counted
  dst : destroyed = true → ∀ f ∈ t.stack, f.afterOk cfg = true
  past : ∀ f ∈ t.stack, f.past = true → destroyed = true

theorem thInv_init (cfg : Cfg) (d : Bool) : ThInv cfg d Th.init := by
  constructor <;> simp [Th.init, WF]

/-- counts of frames a suspended call cannot be in -/
theorem cb_facts {fs : List Fr} (h : ∀ g ∈ fs, g.isCb = true) :
    fs.countP Fr.isRdWait = 0 ∧ fs.countP Fr.pend = 0 ∧ fs.countP Fr.isSpin = 0 ∧
    fs.countP Fr.counted = fs.length ∧ (∀ f ∈ fs, f.past = false) ∧ fs.countP Fr.isW = fs.countP Fr.isWr := by
  have key : ∀ g : Fr, g.isCb = true → g.isRdWait = false ∧ g.pend = false ∧ g.isSpin = false ∧ g.counted = true ∧
      g.past = false ∧ g.isW = g.isWr := by
    intro g hg; cases g <;> simp [Fr.isCb] at hg <;> simp [Fr.isRdWait, Fr.pend, Fr.isSpin, Fr.counted, Fr.past, Fr.isW, Fr.isWr]
  induction fs with
  | nil => simp
  | cons g fs ih =>
    have hg := key g (h g (by simp))
    obtain ⟨a, b, c, d, e, f⟩ := ih (fun x hx => h x (by simp [hx]))
    obtain ⟨a', b', c', d', e', f'⟩ := hg
    simp only [List.countP_cons, a, b, c, d, f, a', b', c', d', f', List.length_cons]
    refine ⟨by simp, by simp, by simp, by simp, ?_, by simp⟩
    intro x hx
    rcases List.mem_cons.mp hx with rfl | hx
    · exact e'
    · exact e x hx

theorem up_le (fs : List Fr) : fs.countP Fr.upAcq ≤ fs.countP Fr.isW ∧
    fs.countP Fr.upAcq ≤ fs.countP Fr.isWr := by
  constructor <;> apply List.countP_mono_left <;> intro f _ h <;> cases f <;> simp_all [Fr.upAcq, Fr.isW, Fr.isWr]

theorem onQ_iff (t : Th) : t.onQ = true ↔ Fr.qCb ∈ t.stack := by
  simp [Th.onQ, List.any_eq_true]

theorem qcb_count {fs : List Fr} (h : Fr.qCb ∈ fs) : 0 < fs.countP Fr.isQ :=
  List.countP_pos_iff.mpr ⟨_, h, rfl⟩

/-- number of calls in flight at a given kind of place -/
def tot (p : Fr → Bool) (l : List Th) : Nat := (l.map fun t => t.stack.countP p).sum

theorem tot_set (p : Fr → Bool) {l : List Th} {i : Nat} {t : Th} (h : l[i]? = some t) (t' : Th) :
    tot p (l.set i t') + t.stack.countP p = tot p l + t'.stack.countP p := by
  induction l generalizing i with
  | nil => simp at h
  | cons a l ih =>
    cases i with
    | zero => simp at h; subst h; simp [tot]; omega
    | succ i =>
      simp at h
      have := ih h
      simp [tot] at this ⊢
      omega

theorem tot_pos (p : Fr → Bool) {l : List Th} {i : Nat} {t : Th} (h : l[i]? = some t) :
    t.stack.countP p ≤ tot p l := by
  have := tot_set p h Th.init
  simp [Th.init] at this; omega

theorem tot_two (p : Fr → Bool) {l : List Th} {i j : Nat} {t u : Th} (h : l[i]? = some t) (hj : l[j]? = some u)
    (hij : i ≠ j) : t.stack.countP p + u.stack.countP p ≤ tot p l := by
  have h1 := tot_set p h Th.init
  have h2 : (l.set i Th.init)[j]? = some u := by rw [List.getElem?_set_ne hij]; exact hj
  have := tot_pos p h2
  simp [Th.init] at h1 this; omega

theorem tot_zero (p : Fr → Bool) {l : List Th} (h : tot p l = 0) : ∀ t ∈ l, t.stack.countP p = 0 := by
  intro t ht
  obtain ⟨i, hi⟩ := List.getElem?_of_mem ht
  have := tot_pos p hi; omega

def Fr.delAct : Fr → Bool
  | .dMark true _ => true | .dWait true _ => true | .dSet true _ => true | .dAfter true _ _ => true
  | .dSpin _ => true | .fin (.destroy true) .ok => true | _ => false
def Fr.markOk : Fr → Bool
  | .dAfter false _ .ok => true | .fin (.destroy false) .ok => true | _ => false
def isDelOk (e : Nat × Call × Ret) : Bool := e.2.1 == .destroy true && e.2.2 == .ok
def isMarkOk (e : Nat × Call × Ret) : Bool := e.2.1 == .destroy false && e.2.2 == .ok
def anyFr (_ : Fr) : Bool := true

structure Inv (cfg : Cfg) (s : St) : Prop where
  th : ∀ (i : Nat) (t : Th), s.ths[i]? = some t → ThInv cfg s.destroyed t
  exW : ∀ (i : Nat) (t : Th), s.ths[i]? = some t → t.rawW = true → ∀ (j : Nat) (u : Th), s.ths[j]? = some u → u.raw = 0 ∧ (u.rawW = true → j = i)
  us : s.usage = (if s.initRef then 1 else 0) + tot anyFr s.ths
  fr : s.freed = true ↔ s.usage = 0
  dt : s.dtor = if s.freed then 1 else 0
  inst : s.installed = true → s.initRef = true
  pend : tot Fr.pend s.ths = if s.initRef = true ∧ s.installed = false then 1 else 0
  one : tot Fr.delAct s.ths + s.log.countP isDelOk = if s.installed then 0 else 1
  mark : tot Fr.markOk s.ths + s.log.countP isMarkOk ≤ if s.destroyed then 1 else 0
  log : 0 < s.log.countP isDelOk → s.destroyed = true
  del : ∀ (i : Nat) (t : Th), s.ths[i]? = some t → 0 < t.stack.countP Fr.pend + t.stack.countP Fr.isSpin → s.deleter = some i
  late : cfg.callerFree = true → cfg.async = false → s.initRef = false → tot Fr.isSpin s.ths = 0 →
    ∀ (i : Nat) (t : Th), s.ths[i]? = some t → t.stack ≠ [] → s.deleter = some i
  byf : s.dtorBy ≠ none → s.freed = true
  by_ : ∀ j, s.dtorBy = some j → cfg.callerFree = true → cfg.async = false → s.deleter = some j

theorem inv_init (cfg : Cfg) (n : Nat) : Inv cfg (St.init n) := by
  have h : ∀ (i : Nat) (t : Th), (St.init n).ths[i]? = some t → t = Th.init := by
    intro i t ht
    simp [St.init, List.getElem?_replicate] at ht
    exact ht.2.symm
  have ht : ∀ p, tot p (St.init n).ths = 0 := by
    intro p; simp [tot, St.init, Th.init]
  constructor
  · intro i t hi; rw [h i t hi]; exact thInv_init cfg _
  · intro i t hi; rw [h i t hi]; simp [Th.init]
  · rw [ht]; rfl
  · simp [St.init]
  · simp [St.init]
  · simp [St.init]
  · rw [ht]; simp [St.init]
  · rw [ht]; simp [St.init]
  · rw [ht]; simp [St.init]
  · simp [St.init]
  · intro i t hi; rw [h i t hi]; simp [Th.init]
  · simp [St.init]
  · simp [St.init]
  · simp [St.init]

/-- What the object's lock demands of the other threads `P` when thread `i` is in state `t`. -/
def Excl (l : List Th) (i : Nat) (t : Th) : Prop :=
  (t.rawW = true → t.raw = 0 ∧ ∀ (j : Nat) (u : Th), j ≠ i → l[j]? = some u → u.raw = 0 ∧ u.rawW = false) ∧
  (t.raw ≠ 0 → ∀ (j : Nat) (u : Th), j ≠ i → l[j]? = some u → u.rawW = false)

theorem Inv.excl {cfg : Cfg} {s : St} (h : Inv cfg s) {i : Nat} {t : Th} (hi : s.ths[i]? = some t) :
    Excl s.ths i t := by
  constructor
  · intro hw
    refine ⟨(h.exW i t hi hw i t hi).1, ?_⟩
    intro j u hj hu
    have := h.exW i t hi hw j u hu
    refine ⟨this.1, ?_⟩
    cases hb : u.rawW
    · rfl
    · exact absurd (this.2 hb) hj
  · intro hr j u hj hu
    cases hb : u.rawW
    · rfl
    · exact absurd (h.exW j u hu hb i t hi).1 hr

theorem noW_iff (s : St) : s.noW = true ↔ ∀ (j : Nat) (u : Th), s.ths[j]? = some u → u.rawW = false := by
  simp only [St.noW, List.all_eq_true]
  constructor
  · intro h j u hu; simpa using h u (List.mem_of_getElem? hu)
  · intro h u hu; obtain ⟨j, hj⟩ := List.getElem?_of_mem hu; simpa using h j u hj

theorem noHolder_iff (s : St) : s.noHolder = true ↔
    ∀ (j : Nat) (u : Th), s.ths[j]? = some u → u.rawW = false ∧ u.raw = 0 := by
  simp only [St.noHolder, List.all_eq_true]
  constructor
  · intro h j u hu; simpa using h u (List.mem_of_getElem? hu)
  · intro h u hu; obtain ⟨j, hj⟩ := List.getElem?_of_mem hu; simpa using h j u hj

theorem get_set {l : List Th} {i : Nat} {t : Th} (h : l[i]? = some t) (t' : Th) (j : Nat) :
    (l.set i t')[j]? = if j = i then some t' else l[j]? := by
  by_cases hj : j = i
  · subst hj
    have : j < l.length := by
      rcases Nat.lt_or_ge j l.length with h1 | h1
      · exact h1
      · rw [List.getElem?_eq_none h1] at h; simp at h
    simp [this]
  · rw [List.getElem?_set_ne (by omega)]; simp [hj]

theorem exW_set {l : List Th} {i : Nat} {t : Th} (hi : l[i]? = some t) (t' : Th)
    (h : ∀ (i : Nat) (t : Th), l[i]? = some t → t.rawW = true → ∀ (j : Nat) (u : Th), l[j]? = some u →
      u.raw = 0 ∧ (u.rawW = true → j = i))
    (hx : Excl l i t') :
    ∀ (a : Nat) (x : Th), (l.set i t')[a]? = some x → x.rawW = true → ∀ (j : Nat) (u : Th),
      (l.set i t')[j]? = some u → u.raw = 0 ∧ (u.rawW = true → j = a) := by
  intro a x ha hw j u hj
  rw [get_set hi] at ha hj
  by_cases ha' : a = i <;> by_cases hj' : j = i
  · simp [ha'] at ha; simp [hj'] at hj; subst ha; subst hj; exact ⟨(hx.1 hw).1, fun _ => by omega⟩
  · simp [ha'] at ha; simp [hj'] at hj; subst ha
    have := (hx.1 hw).2 j u hj' hj
    exact ⟨this.1, fun h => by rw [this.2] at h; simp at h⟩
  · simp [ha'] at ha; simp [hj'] at hj; subst hj
    constructor
    · cases hr : t'.raw with
      | zero => rfl
      | succ n => have := hx.2 (by omega) a x ha' ha; rw [this] at hw; simp at hw
    · intro hu; have := ((hx.1 hu).2 a x ha' ha).2; rw [this] at hw; simp at hw
  · simp [ha'] at ha; simp [hj'] at hj; exact h a x ha hw j u hj

/-- A step that only changes thread `i`. -/
theorem inv_plain {cfg : Cfg} {s : St} (h : Inv cfg s) {i : Nat} {t t' : Th} (hi : s.ths[i]? = some t)
    (hth : ThInv cfg s.destroyed t') (hx : Excl s.ths i t')
    (hall : t'.stack.length = t.stack.length)
    (hpend : t'.stack.countP Fr.pend = t.stack.countP Fr.pend)
    (hact : t'.stack.countP Fr.delAct = t.stack.countP Fr.delAct)
    (hmark : t'.stack.countP Fr.markOk = t.stack.countP Fr.markOk)
    (hspin : t'.stack.countP Fr.isSpin = t.stack.countP Fr.isSpin) :
    Inv cfg (s.setTh i t') := by
  have hA : t'.stack.countP anyFr = t.stack.countP anyFr := by
    have : ∀ l : List Fr, l.countP anyFr = l.length := by
      intro l; simp [anyFr]
    rw [this, this, hall]
  have e : ∀ p, t'.stack.countP p = t.stack.countP p → tot p (s.ths.set i t') = tot p s.ths := by
    intro p hp; have := tot_set p hi t'; omega
  constructor
  · intro j u hj
    simp only [St.setTh] at hj ⊢
    rw [get_set hi] at hj
    by_cases hji : j = i
    · simp [hji] at hj; subst hj; exact hth
    · simp [hji] at hj; exact h.th j u hj
  · exact exW_set hi t' h.exW hx
  · simp only [St.setTh]; rw [e _ hA]; exact h.us
  · exact h.fr
  · exact h.dt
  · exact h.inst
  · simp only [St.setTh]; rw [e _ hpend]; exact h.pend
  · simp only [St.setTh]; rw [e _ hact]; exact h.one
  · simp only [St.setTh]; rw [e _ hmark]; exact h.mark
  · exact h.log
  · intro j u hj hp
    simp only [St.setTh] at hj ⊢
    rw [get_set hi] at hj
    by_cases hji : j = i
    · simp [hji] at hj; subst hj; rw [hji]; exact h.del i t hi (by omega)
    · simp [hji] at hj; exact h.del j u hj hp
  · intro hc ha hr hs j u hj hne
    simp only [St.setTh] at hj hs ⊢ hr
    rw [e _ hspin] at hs
    rw [get_set hi] at hj
    by_cases hji : j = i
    · simp [hji] at hj; subst hj; rw [hji]
      refine h.late hc ha hr hs i t hi ?_
      intro h0; rw [h0] at hall; simp at hall; exact hne hall
    · simp [hji] at hj; exact h.late hc ha hr hs j u hj hne
  · exact h.byf
  · exact h.by_

def AfterOk (cfg : Cfg) (fs : List Fr) : Prop := ∀ g ∈ fs, g.afterOk cfg = true

/-- What is known of a thread in call `f` above the suspended calls `fs`. -/
structure Top (cfg : Cfg) (d : Bool) (t : Th) (f : Fr) (fs : List Fr) : Prop where
  cb : ∀ g ∈ fs, g.isCb = true
  lc : loc cfg f fs
  wf : WF cfg fs
  rd : t.rd = fs.countP Fr.isRd + if f.isRd then 1 else 0
  wr : (if t.wr then 1 else 0) = fs.countP Fr.isWr + if f.isWr then 1 else 0
  xr : t.wr = true → t.rd = 0
  rw : (if t.rawW then 1 else 0) = fs.countP Fr.isWr + if f.isW then 1 else 0
  raw : t.raw + (fs.countP Fr.upAcq + if f.upAcq then 1 else 0) + (if f.isRdWait then 1 else 0) =
    (if t.rd = 0 then 0 else 1) + (if cfg.async then 0 else fs.countP Fr.isQ + if f.isQ then 1 else 0)
  wt : f.isRdWait = true → t.rd = 1
  get : cfg.callerFree = true → t.get = fs.length + if f.counted then 1 else 0
  dst : d = true → f.afterOk cfg = true ∧ AfterOk cfg fs
  past : f.past = true → d = true

theorem top_iff {cfg : Cfg} {d : Bool} {t : Th} {f : Fr} {fs : List Fr} (h : t.stack = f :: fs) :
    ThInv cfg d t ↔ Top cfg d t f fs := by
  constructor
  · intro hT
    have hw := hT.wf; rw [h] at hw
    have hc := cb_facts hw.1
    have h1 := hT.rd; have h2 := hT.wr; have h3 := hT.rw; have h4 := hT.raw; have h5 := hT.get
    have h6 := hT.dst; have h7 := hT.past
    rw [h] at h1 h2 h3 h4 h5 h6 h7
    simp only [List.countP_cons] at h1 h2 h3 h4 h5
    refine ⟨hw.1, hw.2.1, hw.2.2, h1, h2, hT.xr, by rw [← hc.2.2.2.2.2]; exact h3, ?_, ?_, ?_, ?_, ?_⟩
    · have := hc.1; omega
    · intro hf; apply hT.wt; rw [h]; simp [List.countP_cons, hf]
    · intro hcf; have := h5 hcf; have := hc.2.2.2.1; omega
    · intro hd; exact ⟨h6 hd f (by simp), fun g hg => h6 hd g (by simp [hg])⟩
    · intro hp; exact h7 f (by simp) hp
  · intro hT
    have hc := cb_facts hT.cb
    constructor
    · rw [h]; exact ⟨hT.cb, hT.lc, hT.wf⟩
    · rw [h]; simp only [List.countP_cons]; exact hT.rd
    · rw [h]; simp only [List.countP_cons]; exact hT.wr
    · exact hT.xr
    · rw [h]; simp only [List.countP_cons]; rw [hc.2.2.2.2.2]; exact hT.rw
    · rw [h]; simp only [List.countP_cons]; have := hT.raw; have := hc.1; omega
    · intro hp; apply hT.wt; rw [h] at hp; simp only [List.countP_cons] at hp; have := hc.1; grind
    · intro hcf; rw [h]; simp only [List.countP_cons]; have := hT.get hcf; have := hc.2.2.2.1; omega
    · intro hd g hg; rw [h] at hg
      rcases List.mem_cons.mp hg with rfl | hg
      · exact (hT.dst hd).1
      · exact (hT.dst hd).2 g hg
    · intro g hg hp; rw [h] at hg
      rcases List.mem_cons.mp hg with rfl | hg
      · exact hT.past hp
      · rw [hc.2.2.2.2.1 g hg] at hp; simp at hp

section
variable {cfg : Cfg} {d : Bool} {t : Th} {fs : List Fr}

theorem after_q (h : AfterOk cfg fs) (hq : Fr.qCb ∈ fs) : cfg.async = true := by
  have := h _ hq; simpa [Fr.afterOk] using this


macro "topt" h:ident : tactic => `(tactic| (
  have h1 := ($h).rd; have h2 := ($h).wr; have h3 := ($h).xr; have h4 := ($h).rw; have h5 := ($h).raw
  have h6 := ($h).get; have h7 := ($h).dst; have h8 := ($h).past; have h9 := ($h).lc; have h10 := ($h).cb
  have h11 := ($h).wf; have h12 := ($h).wt
  simp only [Fr.isRd, Fr.isRdWait, Fr.isWr, Fr.isW, Fr.upAcq, Fr.isQ, Fr.counted, Fr.past, Fr.own, Fr.needQ, loc,
    Fr.afterOk] at h1 h2 h4 h5 h6 h7 h8 h9 h12
  constructor <;> (try simp only [Fr.isRd, Fr.isRdWait, Fr.isWr, Fr.isW, Fr.upAcq, Fr.isQ, Fr.counted, Fr.past, Fr.own,
    Fr.needQ, loc, Fr.afterOk]) <;> grind [after_q]))

theorem up_q {fs : List Fr} (h : WF cfg fs) : 0 < fs.countP Fr.upAcq → 0 < fs.countP Fr.isQ := by
  induction fs with
  | nil => simp
  | cons f fs ih =>
    intro hu
    simp only [List.countP_cons] at hu ⊢
    by_cases h0 : 0 < fs.countP Fr.upAcq
    · have := ih h.2.2 h0; omega
    · have hf : f.upAcq = true := by
        cases hf : f.upAcq
        · simp [hf] at hu; exact absurd (List.countP_pos_iff.mpr hu) h0
        · rfl
      have hn : f.needQ = true := by
        unfold Fr.upAcq at hf; split at hf <;> simp_all [Fr.needQ]
      have := qcb_count (h.2.1.1 hn).2
      omega

theorem t_holdCb (h : Top cfg d t .holdCb fs) : Top cfg d t (.fin .hold .ok) fs := by topt h
theorem t_rdGot1 (h : Top cfg d t .rdGot fs) (hq : Fr.qCb ∈ fs) (ha : cfg.async = false) :
    Top cfg d t (.rdCb false) fs := by topt h
theorem t_rdGot2 (h : Top cfg d t .rdGot fs) (hw : t.wr = false) (hr : t.rd = 0) :
    Top cfg d { t with rd := 1 } .rdWait fs := by topt h
theorem t_rdGot3 (h : Top cfg d t .rdGot fs) (hw : t.wr = false) (hr : t.rd ≠ 0) :
    Top cfg d { t with rd := t.rd + 1 } .rdChk fs := by topt h
theorem t_rdWait (h : Top cfg d t .rdWait fs) : Top cfg d { t with raw := t.raw + 1 } .rdChk fs := by topt h
theorem t_rdChk1 (h : Top cfg d t .rdChk fs) :
    Top cfg d { t with rd := t.rd - 1, raw := if t.rd - 1 = 0 then t.raw - 1 else t.raw } (.fin .read .eperm) fs := by
  have := up_le fs
  topt h
theorem t_rdChk2 (h : Top cfg d t .rdChk fs) (hd : d = false) : Top cfg d t (.rdCb true) fs := by topt h
theorem t_rdCb1 (h : Top cfg d t (.rdCb false) fs) : Top cfg d t (.fin .read .ok) fs := by topt h
theorem t_rdCb2 (h : Top cfg d t (.rdCb true) fs) :
    Top cfg d { t with rd := t.rd - 1, raw := if t.rd - 1 = 0 then t.raw - 1 else t.raw } (.fin .read .ok) fs := by
  have := up_le fs
  topt h
theorem t_wrGot (h : Top cfg d t .wrGot fs) (hr : t.rd = 0) (hw : t.wr = false) (up : Bool)
    (hu : up = true → Fr.qCb ∈ fs ∧ cfg.async = false) :
    Top cfg d { t with wr := true } (.wrWait up) fs := by
  cases up <;> topt h
theorem t_wrWait1 (h : Top cfg d t (.wrWait false) fs) (hr : t.rawW = false) :
    Top cfg d { t with rawW := true } (.wrChk false) fs := by topt h
theorem t_wrWait2 (h : Top cfg d t (.wrWait true) fs) (hr : t.rawW = false) :
    Top cfg d { t with raw := t.raw - 1, rawW := true } (.wrChk true) fs := by
  have hq := qcb_count (h.lc.1 rfl).2
  have := up_le fs
  topt h
theorem t_wrChk1 (h : Top cfg d t (.wrChk false) fs) :
    Top cfg d { t with wr := false, rawW := false } (.fin .write .eperm) fs := by
  have := up_le fs
  topt h
theorem t_wrChk2 (h : Top cfg d t (.wrChk up) fs) (hd : d = false) : Top cfg d t (.wrCb up) fs := by
  cases up <;> topt h
theorem t_wrCb (h : Top cfg d t (.wrCb up) fs) :
    Top cfg d { t with wr := false, rawW := false, raw := if up then t.raw + 1 else t.raw } (.fin .write .ok) fs := by
  have := up_le fs
  cases up <;> topt h
theorem t_qGot1 (h : Top cfg d t .qGot fs) (ha : cfg.async = true) : Top cfg d t .qChk fs := by topt h
theorem t_qGot2 (h : Top cfg d t .qGot fs) (ha : cfg.async = false) :
    Top cfg d { t with raw := t.raw + 1 } .qChk fs := by topt h
theorem t_qChk1 (h : Top cfg d t .qChk fs) :
    Top cfg d { t with raw := if cfg.async then t.raw else t.raw - 1 } (.fin .qfunc .freeOnly) fs := by
  have := up_le fs
  have := up_q h.wf
  topt h
theorem t_qChk2 (h : Top cfg d t .qChk fs) (hd : d = false) : Top cfg d t .qCb fs := by topt h
theorem t_qCb (h : Top cfg d t .qCb fs) :
    Top cfg d { t with raw := if cfg.async then t.raw else t.raw - 1 } (.fin .qfunc .ok) fs := by
  have := up_le fs
  have := up_q h.wf
  topt h
theorem t_dGot1 (h : Top cfg d t (.dGot del) fs) : Top cfg d t (.dMark del t.get) fs := by
  topt h
theorem t_dGot2 (h : Top cfg d t (.dGot del) fs) : Top cfg d t (.fin (.destroy del) .einval) fs := by
  topt h
theorem t_dMark1 (h : Top cfg d t (.dMark del o) fs) (hd : d = true) : Top cfg d t (.dAfter del o .eperm) fs := by
  topt h
theorem t_dMark2 (h : Top cfg d t (.dMark del o) fs) : Top cfg d t (.dWait del o) fs := by
  topt h
theorem t_dWait (h : Top cfg d t (.dWait del o) fs) (hr : t.rawW = false) :
    Top cfg d { t with rawW := true } (.dSet del o) fs := by
  topt h
theorem t_dAfter1 (h : Top cfg d t (.dAfter del o e) fs) : Top cfg d t (.dSpin o) fs := by
  topt h
theorem t_dAfter2 (h : Top cfg d t (.dAfter del o e) fs) : Top cfg d t (.fin (.destroy del) e) fs := by
  cases e <;> topt h
theorem t_dAfter3 (h : Top cfg d t (.dAfter del o e) fs) : Top cfg d t (.fin (.destroy true) .ok) fs := by
  topt h
theorem t_dSpin (h : Top cfg d t (.dSpin o) fs) : Top cfg d t (.fin (.destroy true) .ok) fs := by
  topt h
end

theorem ex_mono {l : List Th} {i : Nat} {t t' : Th} (h : Excl l i t) (hw : t'.rawW = true → t.rawW = true)
    (hr : t'.raw ≤ t.raw) : Excl l i t' := by
  constructor
  · intro h1
    have := h.1 (hw h1)
    exact ⟨by omega, this.2⟩
  · intro h1; exact h.2 (by omega)

theorem ex_noW {s : St} {i : Nat} {t' : Th} (h : s.noW = true) (hw : t'.rawW = false) : Excl s.ths i t' := by
  constructor
  · intro h1; rw [hw] at h1; simp at h1
  · intro _ j u _ hu; exact (noW_iff s).mp h j u hu

theorem ex_noH {s : St} {i : Nat} {t' : Th} (h : s.noHolder = true) (hr : t'.raw = 0) : Excl s.ths i t' := by
  constructor
  · intro _; exact ⟨hr, fun j u _ hu => ⟨((noHolder_iff s).mp h j u hu).2, ((noHolder_iff s).mp h j u hu).1⟩⟩
  · intro h1; omega

theorem ex_up {s : St} {i : Nat} {t t1 t' : Th} (hi : s.ths[i]? = some t) (h : (s.setTh i t1).noHolder = true)
    (hr : t'.raw = t1.raw) : t1.rawW = false ∧ Excl s.ths i t' := by
  have h1 := (noHolder_iff _).mp h
  simp only [St.setTh, get_set hi] at h1
  have h2 := h1 i t1 (by simp)
  refine ⟨h2.1, ?_⟩
  constructor
  · intro _; refine ⟨by rw [hr]; exact h2.2, fun j u hj hu => ?_⟩
    have := h1 j u (by simp [hj, hu]); exact ⟨this.2, this.1⟩
  · intro h3; rw [hr] at h3; exact absurd h2.2 h3

theorem ex_down {l : List Th} {i : Nat} {t t' : Th} (h : Excl l i t) (ht : t.rawW = true) (hw : t'.rawW = false) :
    Excl l i t' := by
  constructor
  · intro h1; rw [hw] at h1; simp at h1
  · intro _ j u hj hu; exact ((h.1 ht).2 j u hj hu).2

/-- The steps that change only the running thread. -/
theorem frame_plain {cfg : Cfg} {s : St} (h : Inv cfg s) {i : Nat} {t : Th} (hi : s.ths[i]? = some t)
    {f : Fr} {fs : List Fr} (hst : t.stack = f :: fs) {t' : Th} {f' : Fr} (hst' : t'.stack = f' :: fs)
    (hT : Top cfg s.destroyed t' f' fs) (hx : Excl s.ths i t')
    (hp : f'.pend = f.pend) (ha : f'.delAct = f.delAct) (hm : f'.markOk = f.markOk) (hs : f'.isSpin = f.isSpin) :
    Inv cfg (s.setTh i t') := by
  apply inv_plain h hi ((top_iff hst').mpr hT) hx
  · rw [hst, hst']; rfl
  · rw [hst, hst']; simp [List.countP_cons, hp]
  · rw [hst, hst']; simp [List.countP_cons, ha]
  · rw [hst, hst']; simp [List.countP_cons, hm]
  · rw [hst, hst']; simp [List.countP_cons, hs]

theorem top_congr {cfg : Cfg} {d : Bool} {t t' : Th} {f : Fr} {fs : List Fr} (h : Top cfg d t f fs)
    (h1 : t'.rd = t.rd) (h2 : t'.wr = t.wr) (h3 : t'.raw = t.raw) (h4 : t'.rawW = t.rawW) (h5 : t'.get = t.get) :
    Top cfg d t' f fs := by
  obtain ⟨a, b, c, d, e, f, g, h, i, j, k, l⟩ := h
  constructor <;> (try simp only [h1, h2, h3, h4, h5]) <;> assumption

/-- t with another stack -/
theorem top_stk {cfg : Cfg} {d : Bool} {t : Th} {f : Fr} {fs : List Fr} {st : List Fr} (h : Top cfg d t f fs) :
    Top cfg d { t with stack := st } f fs := top_congr h rfl rfl rfl rfl rfl

def Fr.special : Fr → Bool
  | .dGot _ => true | .dSet _ _ => true | .dAfter _ _ _ => true | .dSpin _ => true | .fin _ _ => true | _ => false

theorem frame_inv1 {cfg : Cfg} {s s' : St} (hI : Inv cfg s) {i : Nat} {t : Th} (hi : s.ths[i]? = some t)
    {f : Fr} {fs : List Fr} (hst : t.stack = f :: fs) (hf : f.special = false)
    (hs : s.frame cfg i { t with stack := fs } f = .ok s') : Inv cfg s' := by
  have hT := (top_iff hst).mp (hI.th i t hi)
  have hE := hI.excl hi
  have hq : ({ t with stack := fs } : Th).onQ = true → Fr.qCb ∈ fs := (onQ_iff _).mp
  cases f with
  | holdCb =>
    simp only [St.frame] at hs; cases hs
    exact frame_plain hI hi hst rfl (top_stk (t_holdCb hT)) (ex_mono hE id (Nat.le_refl _)) rfl rfl rfl rfl
  | rdGot =>
    simp only [St.frame] at hs
    split at hs
    · rename_i hc; cases hs
      simp only [Bool.and_eq_true, Bool.not_eq_true'] at hc
      exact frame_plain hI hi hst rfl (top_stk (t_rdGot1 hT (hq hc.1) hc.2)) (ex_mono hE id (Nat.le_refl _)) rfl rfl rfl rfl
    · split at hs
      · cases hs
      · rename_i hw
        simp only [Bool.not_eq_true] at hw
        split at hs
        · cases hs
        · split at hs
          · rename_i hr; cases hs
            exact frame_plain hI hi hst rfl (top_stk (t_rdGot2 hT hw hr)) (ex_mono hE id (Nat.le_refl _)) rfl rfl rfl rfl
          · rename_i hr; cases hs
            exact frame_plain hI hi hst rfl (top_stk (t_rdGot3 hT hw hr)) (ex_mono hE id (Nat.le_refl _)) rfl rfl rfl rfl
  | rdWait =>
    simp only [St.frame] at hs
    split at hs
    · rename_i hn; cases hs
      exact frame_plain hI hi hst rfl (top_stk (t_rdWait hT)) (ex_noW hn ((noW_iff s).mp hn i t hi)) rfl rfl rfl rfl
    · cases hs
  | rdChk =>
    simp only [St.frame] at hs
    split at hs
    · cases hs
      exact frame_plain hI hi hst rfl (top_stk (t_rdChk1 hT)) (ex_mono hE id (by simp only; split <;> omega)) rfl rfl rfl rfl
    · rename_i hd; cases hs
      exact frame_plain hI hi hst rfl (top_stk (t_rdChk2 hT (by simpa using hd))) (ex_mono hE id (Nat.le_refl _)) rfl rfl rfl rfl
  | rdCb b =>
    cases b <;> simp only [St.frame] at hs <;> cases hs
    · exact frame_plain hI hi hst rfl (top_stk (t_rdCb1 hT)) (ex_mono hE id (Nat.le_refl _)) rfl rfl rfl rfl
    · exact frame_plain hI hi hst rfl (top_stk (t_rdCb2 hT)) (ex_mono hE id (by simp only; split <;> omega)) rfl rfl rfl rfl
  | wrGot =>
    simp only [St.frame] at hs
    split at hs
    · cases hs
    · rename_i hc
      simp only [Bool.or_eq_true, bne_iff_ne, ne_eq, not_or, Decidable.not_not, Bool.not_eq_true] at hc
      split at hs
      · rename_i hc2
        simp only [Bool.and_eq_true, Bool.not_eq_true'] at hc2
        split at hs
        · cases hs
        · cases hs
          exact frame_plain hI hi hst rfl (top_stk (t_wrGot hT hc.1 hc.2 true (fun _ => ⟨hq hc2.1, hc2.2⟩)))
            (ex_mono hE id (Nat.le_refl _)) rfl rfl rfl rfl
      · cases hs
        exact frame_plain hI hi hst rfl (top_stk (t_wrGot hT hc.1 hc.2 false (by simp)))
            (ex_mono hE id (Nat.le_refl _)) rfl rfl rfl rfl
  | wrWait b =>
    cases b <;> simp only [St.frame] at hs <;> split at hs
    · rename_i hn; cases hs
      have := (noHolder_iff s).mp hn i t hi
      exact frame_plain hI hi hst rfl (top_stk (t_wrWait1 hT this.1)) (ex_noH hn this.2) rfl rfl rfl rfl
    · cases hs
    · rename_i hn; cases hs
      have := ex_up hi (t' := { t with raw := t.raw - 1, rawW := true, stack := .wrChk true :: fs }) hn rfl
      exact frame_plain hI hi hst rfl (top_stk (t_wrWait2 hT this.1)) this.2 rfl rfl rfl rfl
    · cases hs
  | wrChk up =>
    simp only [St.frame] at hs
    split at hs
    · split at hs
      · cases hs
      · rename_i hu
        cases hs
        have hu' : up = false := by simpa using hu
        subst hu'
        exact frame_plain hI hi hst rfl (top_stk (t_wrChk1 hT)) (ex_mono hE (by simp) (Nat.le_refl _)) rfl rfl rfl rfl
    · rename_i hd; cases hs
      exact frame_plain hI hi hst rfl (top_stk (t_wrChk2 hT (by simpa using hd))) (ex_mono hE id (Nat.le_refl _)) rfl rfl rfl rfl
  | wrCb up =>
    simp only [St.frame] at hs
    cases hs
    have hw : t.rawW = true := by
      have h4 := hT.rw; simp only [Fr.isW] at h4
      cases hb : t.rawW
      · rw [hb] at h4; simp at h4
      · rfl
    exact frame_plain hI hi hst rfl (top_stk (t_wrCb hT)) (ex_down hE hw rfl) rfl rfl rfl rfl
  | qGot =>
    simp only [St.frame] at hs
    split at hs
    · rename_i ha; cases hs
      exact frame_plain hI hi hst rfl (top_stk (t_qGot1 hT ha)) (ex_mono hE id (Nat.le_refl _)) rfl rfl rfl rfl
    · rename_i ha
      split at hs
      · rename_i hn; cases hs
        exact frame_plain hI hi hst rfl (top_stk (t_qGot2 hT (by simpa using ha))) (ex_noW hn ((noW_iff s).mp hn i t hi)) rfl rfl rfl rfl
      · cases hs
  | qChk =>
    simp only [St.frame] at hs
    split at hs
    · cases hs
      exact frame_plain hI hi hst rfl (top_stk (t_qChk1 hT)) (ex_mono hE id (by simp only; split <;> omega)) rfl rfl rfl rfl
    · rename_i hd; cases hs
      exact frame_plain hI hi hst rfl (top_stk (t_qChk2 hT (by simpa using hd))) (ex_mono hE id (Nat.le_refl _)) rfl rfl rfl rfl
  | qCb =>
    simp only [St.frame] at hs
    cases hs
    exact frame_plain hI hi hst rfl (top_stk (t_qCb hT)) (ex_mono hE id (by simp only; split <;> omega)) rfl rfl rfl rfl
  | dMark del own =>
    simp only [St.frame] at hs
    split at hs
    · rename_i hd; cases hs
      exact frame_plain hI hi hst rfl (top_stk (t_dMark1 hT hd)) (ex_mono hE id (Nat.le_refl _))
        (by cases del <;> rfl) (by cases del <;> rfl) (by cases del <;> rfl) rfl
    · cases hs
      exact frame_plain hI hi hst rfl (top_stk (t_dMark2 hT)) (ex_mono hE id (Nat.le_refl _))
        (by cases del <;> rfl) (by cases del <;> rfl) rfl rfl
  | dWait del own =>
    simp only [St.frame] at hs
    split at hs
    · rename_i hn; cases hs
      have := (noHolder_iff s).mp hn i t hi
      exact frame_plain hI hi hst rfl (top_stk (t_dWait hT this.1)) (ex_noH hn this.2)
        (by cases del <;> rfl) (by cases del <;> rfl) rfl rfl
    · cases hs
  | dGot _ => simp [Fr.special] at hf
  | dSet _ _ => simp [Fr.special] at hf
  | dAfter _ _ _ => simp [Fr.special] at hf
  | dSpin _ => simp [Fr.special] at hf
  | fin _ _ => simp [Fr.special] at hf

theorem th_set {cfg : Cfg} {d d' : Bool} {l : List Th} {i : Nat} {t t' : Th} (hi : l[i]? = some t)
    (h : ∀ (j : Nat) (u : Th), j ≠ i → l[j]? = some u → ThInv cfg d u)
    (hd : ∀ (j : Nat) (u : Th), j ≠ i → l[j]? = some u → ThInv cfg d u → ThInv cfg d' u)
    (ht : ThInv cfg d' t') :
    ∀ (j : Nat) (u : Th), (l.set i t')[j]? = some u → ThInv cfg d' u := by
  intro j u hj
  rw [get_set hi] at hj
  by_cases hji : j = i
  · simp [hji] at hj; subst hj; exact ht
  · simp [hji] at hj; exact hd j u hji hj (h j u hji hj)

theorem ite_toNat (b : Bool) : (if b = true then 1 else 0) = b.toNat := by cases b <;> rfl

theorem tot_cons (p : Fr → Bool) {l : List Th} {i : Nat} {t t' : Th} {f f' : Fr} {fs : List Fr}
    (hi : l[i]? = some t) (h : t.stack = f :: fs) (h' : t'.stack = f' :: fs) :
    tot p (l.set i t') + (p f).toNat = tot p l + (p f').toNat := by
  have := tot_set p hi t'
  rw [h, h'] at this
  simp only [List.countP_cons] at this
  have a := ite_toNat (p f); have b := ite_toNat (p f'); omega

theorem tot_pop (p : Fr → Bool) {l : List Th} {i : Nat} {t t' : Th} {f : Fr} {fs : List Fr}
    (hi : l[i]? = some t) (h : t.stack = f :: fs) (h' : t'.stack = fs) :
    tot p (l.set i t') + (p f).toNat = tot p l := by
  have := tot_set p hi t'
  rw [h, h'] at this
  simp only [List.countP_cons] at this
  have a := ite_toNat (p f); omega

theorem tot_push (p : Fr → Bool) {l : List Th} {i : Nat} {t t' : Th} {f : Fr} {fs : List Fr}
    (hi : l[i]? = some t) (h : t.stack = fs) (h' : t'.stack = f :: fs) :
    tot p (l.set i t') = tot p l + (p f).toNat := by
  have := tot_set p hi t'
  rw [h, h'] at this
  simp only [List.countP_cons] at this
  have a := ite_toNat (p f); omega

theorem tot_top (p : Fr → Bool) {l : List Th} {i : Nat} {t : Th} {f : Fr} {fs : List Fr}
    (hi : l[i]? = some t) (h : t.stack = f :: fs) : (p f).toNat ≤ tot p l := by
  have := tot_pos p hi
  rw [h] at this
  simp only [List.countP_cons] at this
  have a := ite_toNat (p f); omega

theorem countP_any (l : List Fr) : l.countP anyFr = l.length := List.countP_eq_length.mpr (fun _ _ => rfl)

theorem pend_spin_le (l : List Fr) : l.countP Fr.pend + l.countP Fr.isSpin ≤ l.countP Fr.delAct := by
  induction l with
  | nil => simp
  | cons g l ih =>
    simp only [List.countP_cons]
    have : (if g.pend = true then 1 else 0) + (if g.isSpin = true then 1 else 0) ≤
        (if g.delAct = true then 1 else 0) := by
      cases g with
      | dMark b _ => cases b <;> simp [Fr.pend, Fr.isSpin, Fr.delAct]
      | dWait b _ => cases b <;> simp [Fr.pend, Fr.isSpin, Fr.delAct]
      | dSet b _ => cases b <;> simp [Fr.pend, Fr.isSpin, Fr.delAct]
      | dAfter b _ _ => cases b <;> simp [Fr.pend, Fr.isSpin, Fr.delAct]
      | _ => simp [Fr.pend, Fr.isSpin, Fr.delAct]
    omega

theorem live {cfg : Cfg} {s : St} (hI : Inv cfg s) {i : Nat} {t : Th} {f : Fr} {fs : List Fr}
    (hi : s.ths[i]? = some t) (h : t.stack = f :: fs) : s.freed = false ∧ s.usage ≠ 0 := by
  have h1 := tot_top anyFr hi h
  have h2 := hI.us
  have h3 : s.usage ≠ 0 := by simp only [anyFr, Bool.toNat_true] at h1; omega
  refine ⟨?_, h3⟩
  cases hf : s.freed
  · rfl
  · exact absurd (hI.fr.mp hf) h3

/-- The removal of the table entry, aosl_ref_destroy with delete. -/
theorem frame_dGot {cfg : Cfg} {s s' : St} (hI : Inv cfg s) {i : Nat} {t : Th} (hi : s.ths[i]? = some t)
    {del : Bool} {fs : List Fr} (hst : t.stack = .dGot del :: fs)
    (hs : s.frame cfg i { t with stack := fs } (.dGot del) = .ok s') : Inv cfg s' := by
  have hT := (top_iff hst).mp (hI.th i t hi)
  have hE := hI.excl hi
  have hl := live hI hi hst
  simp only [St.frame] at hs
  split at hs
  · cases hs
  · split at hs
    · cases hs
    · split at hs
      · rename_i hdel; subst hdel
        split at hs
        · rename_i hin
          cases hs
          have hr := hI.inst hin
          have hp := hI.pend; have ho := hI.one; have hm := hI.mark
          simp only [hr, hin, Bool.true_eq_false, and_false, if_false, if_true] at hp ho
          have hT' := top_stk (st := .dMark true t.get :: fs) (t_dGot1 hT)
          have hE' := ex_mono (t' := { t with stack := .dMark true t.get :: fs }) hE id (Nat.le_refl _)
          have hst' : ({ t with stack := .dMark true t.get :: fs } : Th).stack = .dMark true t.get :: fs := rfl
          simp only [St.setTh]
          generalize ({ t with stack := .dMark true t.get :: fs } : Th) = t' at hT' hE' hst'
          have e := fun p => tot_cons p hi hst hst'
          constructor
          · exact th_set hi (fun j u _ hu => hI.th j u hu) (fun _ _ _ _ h => h) ((top_iff hst').mpr hT')
          · exact exW_set hi _ hI.exW hE'
          · have := e anyFr; have h1 := hI.us; simp only [anyFr] at this; simp only; omega
          · exact hI.fr
          · exact hI.dt
          · intro h; simp at h
          · have := e Fr.pend
            simp only [Fr.pend, Bool.toNat_true, Bool.toNat_false] at this
            simp only [hr, and_self, if_true]; omega
          · have := e Fr.delAct
            simp only [Fr.delAct, Bool.toNat_true, Bool.toNat_false] at this
            simp only [Bool.false_eq_true, if_false]; omega
          · have := e Fr.markOk
            simp only [Fr.markOk, Bool.toNat_false] at this
            simp only; omega
          · exact hI.log
          · intro j u hj hpp
            simp only at hj ⊢
            rw [get_set hi] at hj
            by_cases hji : j = i
            · rw [hji]
            · simp [hji] at hj
              have := hI.del j u hj hpp
              exfalso
              have h3 := tot_pos Fr.delAct hj
              have h4 := pend_spin_le u.stack
              omega
          · intro _ _ h; simp only at h; rw [hr] at h; simp at h
          · exact hI.byf
          · intro j hj
            have := hI.byf (by rw [hj]; simp)
            rw [hl.1] at this; simp at this
        · cases hs
          exact frame_plain hI hi hst rfl (top_stk (t_dGot2 hT)) (ex_mono hE id (Nat.le_refl _)) rfl rfl rfl rfl
      · rename_i hdel
        have hdel : del = false := by simpa using hdel
        subst hdel
        cases hs
        exact frame_plain hI hi hst rfl (top_stk (t_dGot1 hT)) (ex_mono hE id (Nat.le_refl _)) rfl rfl rfl rfl

theorem mem_countP {p : Fr → Bool} {l : List Fr} {f : Fr} (h : f ∈ l) (hp : p f = true) : 0 < l.countP p :=
  List.countP_pos_iff.mpr ⟨f, h, hp⟩

theorem free_fs {cfg : Cfg} {fs : List Fr} (hw : WF cfg fs) (h1 : fs.countP Fr.isRd = 0) (h2 : fs.countP Fr.isWr = 0)
    (h3 : cfg.async = false → fs.countP Fr.isQ = 0) : AfterOk cfg fs := by
  intro f hf
  cases f with
  | rdCb b =>
    cases b
    · obtain ⟨ha, hq⟩ : cfg.async = false ∧ Fr.qCb ∈ fs := by
        clear h1 h2 h3
        induction fs with
        | nil => simp at hf
        | cons g l ih =>
          rcases List.mem_cons.mp hf with rfl | hm
          · have := hw.2.1.1 rfl; exact ⟨this.1, by simp [this.2]⟩
          · have := ih hw.2.2 hm; exact ⟨this.1, by simp [this.2]⟩
      have := mem_countP (p := Fr.isQ) hq rfl
      have := h3 ha
      omega
    · have := mem_countP (p := Fr.isRd) hf rfl; omega
  | wrCb b => have := mem_countP (p := Fr.isWr) hf rfl; omega
  | qCb =>
    simp only [Fr.afterOk]
    cases ha : cfg.async
    · have := mem_countP (p := Fr.isQ) hf rfl
      have := h3 ha
      omega
    · rfl
  | _ => rfl

/-- A thread that holds nothing of the object's lock is in no callback that needs it. -/
theorem free_after {cfg : Cfg} {d : Bool} {u : Th} (h : ThInv cfg d u) (hr : u.raw = 0) (hw : u.rawW = false) :
    ∀ f ∈ u.stack, f.afterOk cfg = true := by
  cases hst : u.stack with
  | nil => simp
  | cons f fs =>
    have hT := (top_iff hst).mp h
    have h1 := hT.raw; have h2 := hT.rd; have h3 := hT.rw; have h4 := up_le fs; have h5 := hT.wt
    simp only [hw, Bool.false_eq_true, if_false, hr] at h1 h3
    have hup : f.upAcq = true → f.isW = true := by cases f <;> simp [Fr.upAcq, Fr.isW]
    have hwr : f.isRdWait = true → f.isRd = true := by cases f <;> simp [Fr.isRdWait, Fr.isRd]
    have hfs : AfterOk cfg fs := by
      apply free_fs hT.wf
      · grind
      · omega
      · grind
    intro g hg
    rcases List.mem_cons.mp hg with rfl | hg
    · cases g with
      | rdCb b =>
        cases b
        · have := hT.lc.1 rfl
          exact absurd (after_q hfs this.2) (by rw [this.1]; simp)
        · simp only [Fr.isRd, Fr.upAcq, Fr.isRdWait] at h1 h2; grind
      | wrCb b => simp only [Fr.isW] at h3; grind
      | qCb =>
        simp only [Fr.afterOk]
        cases ha : cfg.async
        · simp only [Fr.isQ, Fr.upAcq, Fr.isRdWait, ha] at h1; grind
        · rfl
      | _ => rfl
    · exact hfs g hg

theorem thInv_mono {cfg : Cfg} {d : Bool} {u : Th} (h : ThInv cfg d u) (hr : ∀ f ∈ u.stack, f.afterOk cfg = true) :
    ThInv cfg true u := by
  obtain ⟨a, b, c, e, f, g, i, j, k, l⟩ := h
  exact ⟨a, b, c, e, f, g, i, j, fun _ => hr, fun _ _ _ => rfl⟩

theorem frame_dSet {cfg : Cfg} {s s' : St} (hI : Inv cfg s) {i : Nat} {t : Th} (hi : s.ths[i]? = some t)
    {del : Bool} {own : Nat} {fs : List Fr} (hst : t.stack = .dSet del own :: fs)
    (hs : s.frame cfg i { t with stack := fs } (.dSet del own) = .ok s') : Inv cfg s' := by
  have hT := (top_iff hst).mp (hI.th i t hi)
  have hE := hI.excl hi
  simp only [St.frame] at hs
  cases hs
  have hw : t.rawW = true := by
    have h4 := hT.rw; simp only [Fr.isW] at h4
    cases hb : t.rawW
    · rw [hb] at h4; simp at h4
    · rfl
  have hx := hE.1 hw
  have hT' : Top cfg true { t with rawW := false, stack := .dAfter del own (if s.destroyed then .eperm else .ok) :: fs }
      (.dAfter del own (if s.destroyed then .eperm else .ok)) fs := by
    have h1 := hT.raw; have h2 := hT.rd; have h3 := hT.rw; have h4 := up_le fs; have h5 := hT.wr; have h6 := hT.get
    have h7 := hT.lc; have h8 := hT.xr
    simp only [hw, hx.1, Fr.isW, Fr.isRd, Fr.isRdWait, Fr.upAcq, Fr.isWr, Fr.isQ, Fr.counted, loc, Fr.own, Fr.needQ] at h1 h2 h3 h5 h6 h7
    have hfs : AfterOk cfg fs := by
      apply free_fs hT.wf
      · grind
      · grind
      · grind
    refine ⟨hT.cb, ?_, hT.wf, ?_, ?_, h8, ?_, ?_, ?_, ?_, ?_, ?_⟩ <;>
      simp only [Fr.isW, Fr.isRd, Fr.isRdWait, Fr.upAcq, Fr.isWr, Fr.isQ, Fr.counted, loc, Fr.own, Fr.needQ, Fr.afterOk, Fr.past]
    · exact h7
    · exact h2
    · exact h5
    · grind
    · rw [hx.1]; exact h1
    · simp
    · exact h6
    · intro _; exact ⟨trivial, hfs⟩
    · simp
  have hE' := ex_down (t' := { t with rawW := false, stack := .dAfter del own (if s.destroyed then .eperm else .ok) :: fs }) hE hw rfl
  have hst' : ({ t with rawW := false, stack := .dAfter del own (if s.destroyed then .eperm else .ok) :: fs } : Th).stack =
    .dAfter del own (if s.destroyed then .eperm else .ok) :: fs := rfl
  simp only [St.setTh]
  generalize ({ t with rawW := false, stack := .dAfter del own (if s.destroyed then .eperm else .ok) :: fs } : Th) = t' at hT' hE' hst'
  have e := fun p => tot_cons p hi hst hst'
  constructor
  · exact th_set hi (fun j u _ hu => hI.th j u hu)
      (fun j u hj hu h => thInv_mono h (free_after h (hx.2 j u hj hu).1 (hx.2 j u hj hu).2)) ((top_iff hst').mpr hT')
  · exact exW_set hi _ hI.exW hE'
  · have := e anyFr; have h1 := hI.us; simp only [anyFr] at this; simp only; omega
  · exact hI.fr
  · exact hI.dt
  · exact hI.inst
  · have := e Fr.pend; have h := hI.pend
    cases del <;> simp only [Fr.pend, Bool.toNat_true, Bool.toNat_false] at this <;> simp only <;> omega
  · have := e Fr.delAct; have h := hI.one
    cases del <;> simp only [Fr.delAct, Bool.toNat_true, Bool.toNat_false] at this <;> simp only <;> omega
  · have := e Fr.markOk; have h := hI.mark
    simp only [if_true]
    have h0 : (Fr.markOk (.dSet del own)).toNat = 0 := rfl
    rw [h0] at this
    cases hd : s.destroyed
    · simp only [hd, Bool.false_eq_true, if_false] at this h
      have : (Fr.markOk (.dAfter del own .ok)).toNat ≤ 1 := by cases del <;> simp [Fr.markOk]
      omega
    · simp only [hd, if_true] at this h
      have : (Fr.markOk (.dAfter del own .eperm)).toNat = 0 := by cases del <;> simp [Fr.markOk]
      omega
  · intro _; rfl
  · intro j u hj hpp
    simp only at hj ⊢
    rw [get_set hi] at hj
    by_cases hji : j = i
    · simp [hji] at hj; subst hj; rw [hji]
      apply hI.del i t hi
      rw [hst'] at hpp; rw [hst]
      simp only [List.countP_cons] at hpp ⊢
      cases del <;> simp only [Fr.pend, Fr.isSpin] at hpp ⊢ <;> grind
    · simp [hji] at hj; exact hI.del j u hj hpp
  · intro hc ha hr hs j u hj hne
    simp only at hj hs ⊢ hr
    have := e Fr.isSpin
    simp only [Fr.isSpin, Bool.toNat_false] at this
    rw [get_set hi] at hj
    by_cases hji : j = i
    · rw [hji]; exact hI.late hc ha hr (by omega) i t hi (by rw [hst]; simp)
    · simp [hji] at hj; exact hI.late hc ha hr (by omega) j u hj hne
  · exact hI.byf
  · exact hI.by_

theorem frame_dSpin {cfg : Cfg} {s s' : St} (hI : Inv cfg s) {i : Nat} {t : Th} (hi : s.ths[i]? = some t)
    {own : Nat} {fs : List Fr} (hst : t.stack = .dSpin own :: fs)
    (hs : s.frame cfg i { t with stack := fs } (.dSpin own) = .ok s') : Inv cfg s' := by
  have hT := (top_iff hst).mp (hI.th i t hi)
  have hE := hI.excl hi
  simp only [St.frame] at hs
  split at hs
  rotate_left
  · cases hs
  rename_i hu
  cases hs
  have hT' := top_stk (st := .fin (.destroy true) .ok :: fs) (t_dSpin hT)
  have hE' := ex_mono (t' := { t with stack := .fin (.destroy true) .ok :: fs }) hE id (Nat.le_refl _)
  have hst' : ({ t with stack := .fin (.destroy true) .ok :: fs } : Th).stack = .fin (.destroy true) .ok :: fs := rfl
  simp only [St.setTh]
  generalize ({ t with stack := .fin (.destroy true) .ok :: fs } : Th) = t' at hT' hE' hst'
  have e := fun p => tot_cons p hi hst hst'
  constructor
  · exact th_set hi (fun j u _ hu => hI.th j u hu) (fun _ _ _ _ h => h) ((top_iff hst').mpr hT')
  · exact exW_set hi _ hI.exW hE'
  · have := e anyFr; have h1 := hI.us; simp only [anyFr] at this; simp only; omega
  · exact hI.fr
  · exact hI.dt
  · exact hI.inst
  · have := e Fr.pend; have h := hI.pend
    simp only [Fr.pend, Bool.toNat_false] at this; simp only; omega
  · have := e Fr.delAct; have h := hI.one
    simp only [Fr.delAct, Bool.toNat_true] at this; simp only; omega
  · have := e Fr.markOk; have h := hI.mark
    simp only [Fr.markOk, Bool.toNat_false] at this; simp only; omega
  · exact hI.log
  · intro j u hj hpp
    simp only at hj ⊢
    rw [get_set hi] at hj
    by_cases hji : j = i
    · simp [hji] at hj; subst hj; rw [hji]
      apply hI.del i t hi
      rw [hst]; simp only [List.countP_cons, Fr.isSpin, if_true]; omega
    · simp [hji] at hj; exact hI.del j u hj hpp
  · intro hc ha hr hs j u hj hne
    simp only at hj hs ⊢ hr
    rw [get_set hi] at hj
    have hdel : s.deleter = some i := by
      apply hI.del i t hi
      rw [hst]; simp only [List.countP_cons, Fr.isSpin, if_true]; omega
    by_cases hji : j = i
    · rw [hji]; exact hdel
    · simp [hji] at hj
      exfalso
      have h1 := tot_two anyFr hi hj (Ne.symm hji)
      have h2 := hI.us
      have h3 := hT.lc.2 own rfl hc
      rw [hst] at h1
      have : 0 < u.stack.length := List.length_pos_iff.mpr hne
      have h5 : u.stack.countP anyFr = u.stack.length := countP_any _
      have h6 : (Fr.dSpin own :: fs).countP anyFr = fs.length + 1 := countP_any _
      omega
  · exact hI.byf
  · exact hI.by_


theorem frame_dAfter {cfg : Cfg} {s s' : St} (hI : Inv cfg s) {i : Nat} {t : Th} (hi : s.ths[i]? = some t)
    {del : Bool} {own : Nat} {err : Ret} {fs : List Fr} (hst : t.stack = .dAfter del own err :: fs)
    (hs : s.frame cfg i { t with stack := fs } (.dAfter del own err) = .ok s') : Inv cfg s' := by
  have hT := (top_iff hst).mp (hI.th i t hi)
  have hE := hI.excl hi
  simp only [St.frame] at hs
  cases del
  · simp only [Bool.false_eq_true, if_false] at hs
    cases hs
    refine frame_plain hI hi hst rfl (top_stk (t_dAfter2 hT)) (ex_mono hE id (Nat.le_refl _)) rfl ?_ ?_ rfl
    · rfl
    · cases err <;> rfl
  · simp only [if_true] at hs
    have hp := tot_top Fr.pend hi hst
    have hpe := hI.pend
    have hin : s.initRef = true ∧ s.installed = false := by
      by_cases hc : s.initRef = true ∧ s.installed = false
      · exact hc
      · rw [if_neg hc] at hpe; simp only [Fr.pend, Bool.toNat_true] at hp; omega
    rw [if_pos hin] at hpe
    have hus := hI.us
    rw [if_pos hin.1] at hus
    have ha : 1 ≤ tot anyFr s.ths := tot_top anyFr hi hst
    have hl := live hI hi hst
    have hdel : s.deleter = some i := by
      apply hI.del i t hi; rw [hst]; simp only [List.countP_cons, Fr.pend, if_true]; omega
    generalize hf' : (if (cfg.callerFree && !cfg.async) = true then Fr.dSpin own else Fr.fin (.destroy true) .ok) = f' at hs
    have hT' : Top cfg s.destroyed { t with stack := f' :: fs } f' fs := by
      subst hf'; split
      · exact top_stk (t_dAfter1 hT)
      · exact top_stk (t_dAfter3 hT)
    have hE' := ex_mono (t' := { t with stack := f' :: fs }) hE id (Nat.le_refl _)
    have hst' : ({ t with stack := f' :: fs } : Th).stack = f' :: fs := rfl
    have k1 : f'.pend = false := by subst hf'; split <;> rfl
    have k2 : f'.delAct = true := by subst hf'; split <;> rfl
    have k3 : f'.markOk = false := by subst hf'; split <;> rfl
    have k4 : cfg.callerFree = true → cfg.async = false → f'.isSpin = true := by
      intro a b; subst hf'; simp [a, b, Fr.isSpin]
    simp only [St.setTh, St.put] at hs
    generalize ({ t with stack := f' :: fs } : Th) = t' at hs hT' hE' hst'
    have e := fun p => tot_cons p hi hst hst'
    cases hu : s.usage with
    | zero => omega
    | succ n =>
      simp only [hu] at hs
      rw [if_neg (by omega)] at hs
      cases hs
      constructor
      · exact th_set hi (fun j u _ hu => hI.th j u hu) (fun _ _ _ _ h => h) ((top_iff hst').mpr hT')
      · exact exW_set hi _ hI.exW hE'
      · have := e anyFr; simp only [anyFr] at this; simp only [Bool.false_eq_true, if_false]; omega
      · simp only [hl.1, Bool.false_eq_true, false_iff]; omega
      · exact hI.dt
      · intro h; simp only at h; rw [hin.2] at h; simp at h
      · have := e Fr.pend
        rw [k1] at this
        simp only [Fr.pend, Bool.toNat_true, Bool.toNat_false] at this
        simp only [Bool.false_eq_true, false_and, if_false]; omega
      · have := e Fr.delAct; have h := hI.one
        rw [k2] at this
        simp only [Fr.delAct, Bool.toNat_true] at this; simp only; omega
      · have := e Fr.markOk; have h := hI.mark
        rw [k3] at this
        have h0 : (Fr.markOk (.dAfter true own err)).toNat = 0 := by cases err <;> rfl
        simp only [h0, Bool.toNat_false] at this; simp only; omega
      · exact hI.log
      · intro j u hj hpp
        simp only at hj ⊢
        rw [get_set hi] at hj
        by_cases hji : j = i
        · rw [hji]; exact hdel
        · simp [hji] at hj; exact hI.del j u hj hpp
      · intro hc hb _ hs j u hj hne
        simp only at hs
        have := e Fr.isSpin
        rw [k4 hc hb, hs] at this
        simp only [Fr.isSpin, Bool.toNat_true, Bool.toNat_false] at this
        omega
      · exact hI.byf
      · exact hI.by_

theorem thInv_pop {cfg : Cfg} {d : Bool} {t : Th} {c : Call} {r : Ret} {fs : List Fr}
    (hT : Top cfg d t (.fin c r) fs) :
    ThInv cfg d { t with stack := fs, get := if cfg.callerFree && counted c then t.get - 1 else t.get } := by
  have hc := cb_facts hT.cb
  have h1 := hT.raw; have h2 := hT.rd; have h3 := hT.rw; have h5 := hT.wr; have h6 := hT.get
  simp only [Fr.isW, Fr.isRd, Fr.isRdWait, Fr.upAcq, Fr.isWr, Fr.isQ] at h1 h2 h3 h5
  constructor <;> simp only
  · exact hT.wf
  · exact h2
  · exact h5
  · exact hT.xr
  · rw [hc.2.2.2.2.2]; exact h3
  · have := hc.1; grind
  · have := hc.1; omega
  · intro hcf
    have := h6 hcf; have := hc.2.2.2.1
    cases c <;> simp only [counted, Fr.counted, hcf, Bool.and_true, Bool.and_false, if_true, if_false, Bool.false_eq_true] at * <;> omega
  · intro hd; exact (hT.dst hd).2
  · intro f hf hp; rw [hc.2.2.2.2.1 f hf] at hp; simp at hp

theorem frame_fin {cfg : Cfg} {s s' : St} (hI : Inv cfg s) {i : Nat} {t : Th} (hi : s.ths[i]? = some t)
    {c : Call} {r : Ret} {fs : List Fr} (hst : t.stack = .fin c r :: fs)
    (hs : s.frame cfg i { t with stack := fs } (.fin c r) = .ok s') : Inv cfg s' := by
  have hT := (top_iff hst).mp (hI.th i t hi)
  have hE := hI.excl hi
  have hl := live hI hi hst
  have ha : 1 ≤ tot anyFr s.ths := tot_top anyFr hi hst
  have hT' := thInv_pop hT
  have hE' := ex_mono (t' := { t with stack := fs, get := if cfg.callerFree && counted c then t.get - 1 else t.get }) hE id (Nat.le_refl _)
  have hst' : ({ t with stack := fs, get := if cfg.callerFree && counted c then t.get - 1 else t.get } : Th).stack = fs := rfl
  simp only [St.frame, St.setTh, St.put] at hs
  generalize ({ t with stack := fs, get := if cfg.callerFree && counted c then t.get - 1 else t.get } : Th) = t' at hs hT' hE' hst'
  have e := fun p => tot_pop p hi hst hst'
  have hus := hI.us
  have hone : tot Fr.delAct (s.ths.set i t') + ((i, c, r) :: s.log).countP isDelOk = if s.installed then 0 else 1 := by
    have h1 := e Fr.delAct; have h2 := hI.one
    simp only [List.countP_cons]
    have : (if isDelOk (i, c, r) = true then 1 else 0) = (Fr.delAct (.fin c r)).toNat := by
      cases c with
      | destroy b => cases b <;> cases r <;> rfl
      | _ => cases r <;> rfl
    omega
  have hmark : tot Fr.markOk (s.ths.set i t') + ((i, c, r) :: s.log).countP isMarkOk ≤ if s.destroyed then 1 else 0 := by
    have h1 := e Fr.markOk; have h2 := hI.mark
    simp only [List.countP_cons]
    have : (if isMarkOk (i, c, r) = true then 1 else 0) = (Fr.markOk (.fin c r)).toNat := by
      cases c with
      | destroy b => cases b <;> cases r <;> rfl
      | _ => cases r <;> rfl
    omega
  have hlog : 0 < ((i, c, r) :: s.log).countP isDelOk → s.destroyed = true := by
    intro hp
    simp only [List.countP_cons] at hp
    by_cases h0 : 0 < s.log.countP isDelOk
    · exact hI.log h0
    · apply hT.past
      have : isDelOk (i, c, r) = true := by
        cases hh : isDelOk (i, c, r)
        · rw [hh] at hp; simp only [Bool.false_eq_true, if_false] at hp; omega
        · rfl
      cases c with
      | destroy b => cases b <;> cases r <;> first | rfl | simp [isDelOk] at this
      | _ => cases r <;> simp [isDelOk] at this
  have hpend : tot Fr.pend (s.ths.set i t') = if s.initRef = true ∧ s.installed = false then 1 else 0 := by
    have h1 := e Fr.pend; have h2 := hI.pend
    simp only [Fr.pend, Bool.toNat_false] at h1; omega
  have hdel : ∀ (j : Nat) (u : Th), (s.ths.set i t')[j]? = some u →
      0 < u.stack.countP Fr.pend + u.stack.countP Fr.isSpin → s.deleter = some j := by
    intro j u hj hpp
    rw [get_set hi] at hj
    by_cases hji : j = i
    · simp [hji] at hj; subst hj
      have := cb_facts hT.cb
      rw [hst'] at hpp; omega
    · simp [hji] at hj; exact hI.del j u hj hpp
  have hlate : cfg.callerFree = true → cfg.async = false → s.initRef = false → tot Fr.isSpin (s.ths.set i t') = 0 →
      ∀ (j : Nat) (u : Th), (s.ths.set i t')[j]? = some u → u.stack ≠ [] → s.deleter = some j := by
    intro hc hb hr hsp j u hj hne
    have h1 := e Fr.isSpin
    simp only [Fr.isSpin, Bool.toNat_false] at h1
    rw [get_set hi] at hj
    by_cases hji : j = i
    · rw [hji]; exact hI.late hc hb hr (by omega) i t hi (by rw [hst]; simp)
    · simp [hji] at hj; exact hI.late hc hb hr (by omega) j u hj hne
  have hany : tot anyFr (s.ths.set i t') + 1 = tot anyFr s.ths := e anyFr
  cases hu : s.usage with
  | zero => omega
  | succ n =>
    simp only [hu] at hs
    split at hs
    · rename_i hn
      cases hs
      constructor
      · exact th_set hi (fun j u _ hu => hI.th j u hu) (fun _ _ _ _ h => h) hT'
      · exact exW_set hi _ hI.exW hE'
      · simp only; omega
      · simp
      · have := hI.dt; simp only [hl.1, Bool.false_eq_true, if_false] at this; simp [this]
      · exact hI.inst
      · exact hpend
      · exact hone
      · exact hmark
      · exact hlog
      · exact hdel
      · exact hlate
      · intro _; rfl
      · intro j hj hc hb
        simp only [Option.some.injEq] at hj
        subst hj
        have hr : s.initRef = false := by
          cases hr : s.initRef
          · rfl
          · rw [if_pos hr] at hus; omega
        have hsp : tot Fr.isSpin s.ths = 0 := by
          have h1 := e Fr.isSpin
          simp only [Fr.isSpin, Bool.toNat_false] at h1
          have : tot Fr.isSpin (s.ths.set i t') ≤ tot anyFr (s.ths.set i t') := by
            clear h1 hlate hdel hpend hmark hone hany e hlog
            induction (s.ths.set i t') with
            | nil => simp [tot]
            | cons a l ih =>
              simp only [tot, List.map_cons, List.sum_cons] at ih ⊢
              have : a.stack.countP Fr.isSpin ≤ a.stack.countP anyFr :=
                List.countP_mono_left (fun _ _ _ => rfl)
              omega
          omega
        exact hI.late hc hb hr hsp i t hi (by rw [hst]; simp)
    · rename_i hn
      cases hs
      constructor
      · exact th_set hi (fun j u _ hu => hI.th j u hu) (fun _ _ _ _ h => h) hT'
      · exact exW_set hi _ hI.exW hE'
      · simp only at *; omega
      · simp only [hl.1, Bool.false_eq_true, false_iff]; exact hn
      · exact hI.dt
      · exact hI.inst
      · exact hpend
      · exact hone
      · exact hmark
      · exact hlog
      · exact hdel
      · exact hlate
      · exact hI.byf
      · exact hI.by_

theorem canCall_cb {cfg : Cfg} {d : Bool} {t : Th} (h : ThInv cfg d t) (hc : t.canCall = true) :
    ∀ g ∈ t.stack, g.isCb = true := by
  cases hst : t.stack with
  | nil => simp
  | cons f fs =>
    have hT := (top_iff hst).mp h
    intro g hg
    rcases List.mem_cons.mp hg with rfl | hg
    · simp only [Th.canCall, hst] at hc
      cases g <;> simp at hc <;> rfl
    · exact hT.cb g hg

theorem thInv_push {cfg : Cfg} {d : Bool} {t : Th} (h : ThInv cfg d t) (hc : t.canCall = true) (c : Call) :
    Top cfg d { t with stack := getFrame c :: t.stack, get := if cfg.callerFree && counted c then t.get + 1 else t.get }
      (getFrame c) t.stack := by
  have hcb := canCall_cb h hc
  have hf := cb_facts hcb
  have h1 := h.raw; have h2 := h.rd; have h3 := h.rw; have h5 := h.wr; have h6 := h.get
  have h7 := hf.2.2.2.1
  have h8 := hf.1
  cases c <;> refine ⟨hcb, ?_, h.wf, ?_, ?_, h.xr, ?_, ?_, ?_, ?_, ?_, ?_⟩ <;>
    simp only [getFrame, Fr.isW, Fr.isRd, Fr.isRdWait, Fr.upAcq, Fr.isWr, Fr.isQ, Fr.counted, loc, Fr.own, Fr.needQ, Fr.afterOk,
      Fr.past, counted] <;> first | grind | (intro hd; exact ⟨trivial, h.dst hd⟩)

theorem call_inv {cfg : Cfg} {s s' : St} (hI : Inv cfg s) {i : Nat} {t : Th} (hi : s.ths[i]? = some t) {c : Call}
    (hs : s.call cfg i t c = .ok s') : Inv cfg s' := by
  have hth := hI.th i t hi
  have hE := hI.excl hi
  simp only [St.call] at hs
  split at hs
  rotate_left
  · cases hs
  rename_i hcan
  split at hs
  · rename_i hin
    split at hs
    · cases hs
    · rename_i hfr
      have hfr : s.freed = false := by simpa using hfr
      cases hs
      have hr := hI.inst hin
      have hT' := thInv_push hth hcan c
      have hE' := ex_mono (t' := { t with stack := getFrame c :: t.stack, get := if cfg.callerFree && counted c then t.get + 1 else t.get }) hE id (Nat.le_refl _)
      have hst' : ({ t with stack := getFrame c :: t.stack, get := if cfg.callerFree && counted c then t.get + 1 else t.get } : Th).stack = getFrame c :: t.stack := rfl
      simp only [St.setTh]
      generalize ({ t with stack := getFrame c :: t.stack, get := if cfg.callerFree && counted c then t.get + 1 else t.get } : Th) = t' at hT' hE' hst'
      have e := fun p => tot_push p hi rfl hst'
      have k1 : (getFrame c).pend = false := by cases c <;> rfl
      have k2 : (getFrame c).delAct = false := by cases c <;> rfl
      have k3 : (getFrame c).markOk = false := by cases c <;> rfl
      have k4 : (getFrame c).isSpin = false := by cases c <;> rfl
      have hus := hI.us
      constructor
      · exact th_set hi (fun j u _ hu => hI.th j u hu) (fun _ _ _ _ h => h) ((top_iff hst').mpr hT')
      · exact exW_set hi _ hI.exW hE'
      · have := e anyFr; have k : (anyFr (getFrame c)).toNat = 1 := rfl; simp only; omega
      · simp only [hfr, Bool.false_eq_true, false_iff]; omega
      · exact hI.dt
      · exact hI.inst
      · have := e Fr.pend; rw [k1] at this; have := hI.pend; simp only [Bool.toNat_false] at *; omega
      · have := e Fr.delAct; rw [k2] at this; have := hI.one; simp only [Bool.toNat_false] at *; omega
      · have := e Fr.markOk; rw [k3] at this; have := hI.mark; simp only [Bool.toNat_false] at *; omega
      · exact hI.log
      · intro j u hj hpp
        simp only at hj ⊢
        rw [get_set hi] at hj
        by_cases hji : j = i
        · simp [hji] at hj; subst hj; rw [hji]
          rw [hst'] at hpp
          simp only [List.countP_cons, k1, k4, Bool.false_eq_true, if_false, Nat.add_zero] at hpp
          exact hI.del i t hi hpp
        · simp [hji] at hj; exact hI.del j u hj hpp
      · intro _ _ h; simp only at h; rw [hr] at h; simp at h
      · exact hI.byf
      · exact hI.by_
  · rename_i hin
    cases hs
    have k1 : isDelOk (i, c, missing c) = false := by cases c <;> simp [isDelOk, missing]
    have k2 : isMarkOk (i, c, missing c) = false := by cases c <;> simp [isMarkOk, missing]
    obtain ⟨a1, a2, a3, a4, a5, a6, a7, a8, a9, a10, a11, a12, a13, a14⟩ := hI
    refine ⟨a1, a2, a3, a4, a5, a6, a7, ?_, ?_, ?_, a11, a12, a13, a14⟩
    · simp only [List.countP_cons, k1, Bool.false_eq_true, if_false, Nat.add_zero]; exact a8
    · simp only [List.countP_cons, k2, Bool.false_eq_true, if_false, Nat.add_zero]; exact a9
    · simp only [List.countP_cons, k1, Bool.false_eq_true, if_false, Nat.add_zero]; exact a10

theorem frame_inv {cfg : Cfg} {s s' : St} (hI : Inv cfg s) {i : Nat} {t : Th} (hi : s.ths[i]? = some t)
    {f : Fr} {fs : List Fr} (hst : t.stack = f :: fs) (hs : s.frame cfg i { t with stack := fs } f = .ok s') :
    Inv cfg s' := by
  by_cases hf : f.special = true
  · cases f <;> simp only [Fr.special, Bool.false_eq_true] at hf
    · exact frame_dGot hI hi hst hs
    · exact frame_dSet hI hi hst hs
    · exact frame_dAfter hI hi hst hs
    · exact frame_dSpin hI hi hst hs
    · exact frame_fin hI hi hst hs
  · exact frame_inv1 hI hi hst (by simpa using hf) hs

theorem step_inv {cfg : Cfg} {s s' : St} {a : Act} (hI : Inv cfg s) (hs : s.step cfg a = .ok s') : Inv cfg s' := by
  cases a with
  | call i c =>
    simp only [St.step] at hs
    split at hs
    · cases hs
    · rename_i t hi; exact call_inv hI hi hs
  | go i =>
    simp only [St.step] at hs
    split at hs
    · cases hs
    · rename_i t hi
      split at hs
      · cases hs
      · rename_i f fs hst
        split at hs
        · cases hs
        · exact frame_inv hI hi hst hs

theorem run_inv {cfg : Cfg} {s s' : St} {l : List Act} (hI : Inv cfg s) (hs : s.run cfg l = .ok s') : Inv cfg s' := by
  induction l generalizing s with
  | nil => simp only [St.run] at hs; cases hs; exact hI
  | cons a l ih =>
    simp only [St.run] at hs
    cases h1 : s.step cfg a with
    | ok s1 => rw [h1] at hs; exact ih (step_inv hI h1) hs
    | no => rw [h1] at hs; cases hs
    | abort => rw [h1] at hs; cases hs
    | ub => rw [h1] at hs; cases hs

end Verif.RefObj
