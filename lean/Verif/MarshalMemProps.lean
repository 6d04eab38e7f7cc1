import Verif.MarshalMem
import Verif.MarshalProps

/-!
  Memory ownership of typed objects: aosl_init_typed_obj, aosl_unmarshal and aosl_fini_typed_obj together
  (C152-C155).
-/
namespace Verif.MarshalMem
open Verif.Marshal

/-! ### Specification -/

/-- Types without pointers: integers, addresses, byte arrays of fixed capacity, and structures, references
    and fixed arrays of such types. -/
inductive Flat (env : Env) : Nat → Prop where
  | leaf {t : Nat} (h : (match env t with
      | .void | .int _ | .raw _ | .fixedBytes _ | .varBytes _ | .bytesNil _ | .unknown => True
      | _ => False)) : Flat env t
  | ref {t ch : Nat} (h : env t = .reference ch) (hc : Flat env ch) : Flat env t
  | struct {t : Nat} {fs : List Field} (h : env t = .struct fs) (hc : ∀ fd ∈ fs, Flat env fd.node) : Flat env t
  | arr {t n ch : Nat} (h : env t = .fixedArray n ch) (hc : Flat env ch) : Flat env t

/-- No type contains itself without a pointer in between, as far as its size is concerned
    (get_type_size returns). -/
def Sane (env : Env) : Prop := ∀ t, ∃ f b, sizeOk env f t = some b

/-- aosl_fini_typed_obj on the memory `c`, with `l` the live allocations, returns without undefined
    behaviour and leaves `l'` live (whatever recursion depth is offered beyond some bound). -/
def Finishes (env : Env) (t : Nat) (c : Cell) (l l' : List Nat) : Prop :=
  ∃ f0, ∀ f, f0 ≤ f → (fini env f t c l).fin = .ok ∧ (fini env f t c l).live = l'

/-- The types whose objects are put into allocated memory, or are elements of a VAR_ARRAY (of which
    aosl_init_typed_obj initialises the count only), and the parts of such objects. -/
inductive InHeap (env : Env) : Nat → Prop where
  | ptr {t ch : Nat} (h : env t = .pointer ch) : InHeap env ch
  | dyn {t ch : Nat} (h : env t = .dynArray ch) : InHeap env ch
  | var {t cap ch : Nat} (h : env t = .varArray cap ch) : InHeap env ch
  | ref {t ch : Nat} (ht : InHeap env t) (h : env t = .reference ch) : InHeap env ch
  | arr {t n ch : Nat} (ht : InHeap env t) (h : env t = .fixedArray n ch) : InHeap env ch
  | struct {t : Nat} {fs : List Field} (ht : InHeap env t) (h : env t = .struct fs) {fd : Field} (hf : fd ∈ fs) :
      InHeap env fd.node

/-- In such objects, optional fields (with `is_have`) have no pointers. -/
def OptionalFlat (env : Env) : Prop :=
  ∀ t fs, InHeap env t → env t = .struct fs → ∀ fd ∈ fs, fd.isHave = none ∨ Flat env fd.node

/-- An object ready to receive: just initialised, or finalised after whatever it was used for. -/
inductive Clean (env : Env) (t : Nat) : Cell → Prop where
  | init {f : Nat} {c c' : Cell} (h : init env f t c = some c') : Clean env t c'
  | fini {f : Nat} {c : Cell} {l : List Nat} (h : (fini env f t c l).fin = .ok) : Clean env t (fini env f t c l).cell

/-- The cells hold the values: what a reader of the memory sees. -/
inductive Holds (env : Env) : List (Nat × Cell) → List Val → Prop where
  | nil : Holds env [] []
  /-- a field that is not present: whatever -/
  | absent {t c rest vs} (hr : Holds env rest vs) : Holds env ((t, c) :: rest) (.absent :: vs)
  | void {t c rest vs} (h : env t = .void) (hr : Holds env rest vs) : Holds env ((t, c) :: rest) (.unit :: vs)
  | base {t v rest vs} (h : (match env t with
      | .int _ | .raw _ | .fixedBytes _ | .varBytes _ | .bytesNil _ => True | _ => False)) (hr : Holds env rest vs) :
      Holds env ((t, .base v) :: rest) (v :: vs)
  | null {t ch rest vs} (h : env t = .pointer ch) (hr : Holds env rest vs) : Holds env ((t, .null) :: rest) (.ptr none :: vs)
  | ptr {t ch id x v rest vs} (h : env t = .pointer ch) (hx : Holds env [(ch, x)] [v]) (hr : Holds env rest vs) :
      Holds env ((t, .ptr id x) :: rest) (.ptr (some v) :: vs)
  | ref {t ch c v rest vs} (h : env t = .reference ch) (hx : Holds env [(ch, c)] [v]) (hr : Holds env rest vs) :
      Holds env ((t, c) :: rest) (v :: vs)
  | strNull {t rest vs} (h : env t = .string) (hr : Holds env rest vs) : Holds env ((t, .null) :: rest) (.str none :: vs)
  | str {t id bs rest vs} (h : env t = .string) (hr : Holds env rest vs) :
      Holds env ((t, .str id bs) :: rest) (cstr bs :: vs)
  | struct {t fs cs ws rest vs} (h : env t = .struct fs) (hl : cs.length = fs.length)
      (hx : Holds env ((fs.map (·.node)).zip cs) ws) (hr : Holds env rest vs) :
      Holds env ((t, .struct cs) :: rest) (.struct ws :: vs)
  | dynB0 {t v rest vs} (h : env t = .dynBytes) (hr : Holds env rest vs) : Holds env ((t, .dynB 0 0 v) :: rest) (.bytes [] :: vs)
  | dynB {t a id bs rest vs} (h : env t = .dynBytes) (hr : Holds env rest vs) :
      Holds env ((t, .dynB bs.length a (some (id, bs))) :: rest) (.bytes bs :: vs)
  | arr {t n ch cs ws rest vs} (h : env t = .fixedArray n ch) (hl : cs.length = n)
      (hx : Holds env ((List.replicate n ch).zip cs) ws) (hr : Holds env rest vs) : Holds env ((t, .arr cs) :: rest) (.arr ws :: vs)
  | varr {t cap ch es ws rest vs} (h : env t = .varArray cap ch) (hc : ws.length ≤ cap)
      (hl : es.length = cap) (hx : Holds env ((List.replicate ws.length ch).zip es) ws) (hr : Holds env rest vs) :
      Holds env ((t, .varr ws.length es) :: rest) (.arr ws :: vs)
  | dynA0 {t v es rest vs} (ch : Nat) (h : env t = .dynArray ch) (hr : Holds env rest vs) :
      Holds env ((t, .dynA 0 0 v es) :: rest) (.arr [] :: vs)
  | dynA {t ch id es ws rest vs} (h : env t = .dynArray ch) (hl : es.length = ws.length)
      (hx : Holds env ((List.replicate ws.length ch).zip es) ws) (hr : Holds env rest vs) :
      Holds env ((t, .dynA ws.length ws.length (some id) es) :: rest) (.arr ws :: vs)

/-! ### Who owns what -/

def Sized (env : Env) (t : Nat) : Prop := ∃ f0, ∀ f, f0 ≤ f → sizeOk env f t = some true

/-- The typed cells `its` are properly initialised and refer to exactly the allocations in the list. -/
inductive Owns (env : Env) : List (Nat × Cell) → List Nat → Prop where
  | nil : Owns env [] []
  | flat {t c rest L} (h : Flat env t) (hr : Owns env rest L) : Owns env ((t, c) :: rest) L
  | null {t ch rest L} (h : env t = .pointer ch) (hr : Owns env rest L) : Owns env ((t, .null) :: rest) L
  | ptr {t ch id x A rest L} (h : env t = .pointer ch) (hx : Owns env [(ch, x)] A) (hr : Owns env rest L) :
      Owns env ((t, .ptr id x) :: rest) (A ++ id :: L)
  | ref {t ch c A rest L} (h : env t = .reference ch) (hx : Owns env [(ch, c)] A) (hr : Owns env rest L) :
      Owns env ((t, c) :: rest) (A ++ L)
  | strNull {t rest L} (h : env t = .string) (hr : Owns env rest L) : Owns env ((t, .null) :: rest) L
  | str {t id bs rest L} (h : env t = .string) (hr : Owns env rest L) : Owns env ((t, .str id bs) :: rest) (id :: L)
  | struct {t fs cs A rest L} (h : env t = .struct fs) (hl : cs.length = fs.length)
      (hx : Owns env ((fs.map (·.node)).zip cs) A) (hr : Owns env rest L) : Owns env ((t, .struct cs) :: rest) (A ++ L)
  | dynB0 {t n v rest L} (h : env t = .dynBytes) (hr : Owns env rest L) : Owns env ((t, .dynB n 0 v) :: rest) L
  | dynB {t n a id bs rest L} (h : env t = .dynBytes) (ha : 0 < a) (hr : Owns env rest L) :
      Owns env ((t, .dynB n a (some (id, bs))) :: rest) (id :: L)
  | arr {t n ch cs A rest L} (h : env t = .fixedArray n ch) (hs : Sized env ch) (hl : cs.length = n)
      (hx : Owns env ((List.replicate n ch).zip cs) A) (hr : Owns env rest L) : Owns env ((t, .arr cs) :: rest) (A ++ L)
  | arrBad {t n ch c rest L} (h : env t = .fixedArray n ch ∨ env t = .varArray n ch) (hs : ∃ f0, ∀ f, f0 ≤ f → sizeOk env f ch = some false)
      (hr : Owns env rest L) : Owns env ((t, c) :: rest) L
  | varr {t cap ch count es A rest L} (h : env t = .varArray cap ch) (hs : count = 0 ∨ Sized env ch) (hc : count ≤ cap)
      (hl : es.length = cap) (hx : Owns env ((List.replicate count ch).zip es) A) (hr : Owns env rest L) :
      Owns env ((t, .varr count es) :: rest) (A ++ L)
  | dynA0 {t n v es rest L} (ch : Nat) (h : env t = .dynArray ch) (hr : Owns env rest L) :
      Owns env ((t, .dynA n 0 v es) :: rest) L
  | dynA {t ch k id es A rest L} (h : env t = .dynArray ch) (hs : Sized env ch) (hk : 0 < k) (hl : es.length = k)
      (hx : Owns env ((List.replicate k ch).zip es) A) (hr : Owns env rest L) :
      Owns env ((t, .dynA k k (some id) es) :: rest) (A ++ id :: L)

theorem Owns.append {env : Env} {its : List (Nat × Cell)} {L : List Nat} (h : Owns env its L) :
    ∀ {its' L'}, Owns env its' L' → Owns env (its ++ its') (L ++ L') := by
  induction h with
  | nil => intro its' L' h'; simpa using h'
  | flat h _ ih => intro its' L' h'; exact .flat h (ih h')
  | null h _ ih => intro its' L' h'; exact .null h (ih h')
  | ptr h hx _ _ ih => intro its' L' h'; simpa using Owns.ptr h hx (ih h')
  | ref h hx _ _ ih => intro its' L' h'; simpa using Owns.ref h hx (ih h')
  | strNull h _ ih => intro its' L' h'; exact .strNull h (ih h')
  | str h _ ih => intro its' L' h'; exact .str h (ih h')
  | struct h hl hx _ _ ih => intro its' L' h'; simpa using Owns.struct h hl hx (ih h')
  | dynB0 h _ ih => intro its' L' h'; exact .dynB0 h (ih h')
  | dynB h ha _ ih => intro its' L' h'; exact .dynB h ha (ih h')
  | arr h hs hl hx _ _ ih => intro its' L' h'; simpa using Owns.arr h hs hl hx (ih h')
  | arrBad h hs _ ih => intro its' L' h'; exact .arrBad h hs (ih h')
  | varr h hs hc hl hx _ _ ih => intro its' L' h'; simpa using Owns.varr h hs hc hl hx (ih h')
  | dynA0 ch h _ ih => intro its' L' h'; exact .dynA0 ch h (ih h')
  | dynA h hs hk hl hx _ _ ih => intro its' L' h'; simpa using Owns.dynA h hs hk hl hx (ih h')

theorem Owns.cons {env : Env} {t : Nat} {c : Cell} {A : List Nat} {rest : List (Nat × Cell)} {L : List Nat}
    (h : Owns env [(t, c)] A) (hr : Owns env rest L) : Owns env ((t, c) :: rest) (A ++ L) := by
  simpa using h.append hr

/-! ### fini -/

theorem sizeOk_stable {env : Env} {f t : Nat} {b : Bool} (h : sizeOk env f t = some b) : ∀ f', f ≤ f' → sizeOk env f' t = some b := by
  intro f' hf
  induction f' with
  | zero => have : f = 0 := by omega
            subst this; exact h
  | succ g ih =>
    by_cases hg : f ≤ g
    · have := ih hg
      have h2 := sizeOk_mono (env := env) g t
      rw [this] at h2
      rcases h2 with h2 | h2
      · cases h2
      · exact h2.symm
    · have : f = g + 1 := by omega
      subst this; exact h

theorem sane_size {env : Env} (hs : Sane env) (t : Nat) : ∃ f0 b, ∀ f, f0 ≤ f → sizeOk env f t = some b := by
  obtain ⟨f, b, h⟩ := hs t
  exact ⟨f, b, sizeOk_stable h⟩

theorem members_length (n : Nat) (c : Cell) : (members n c).length = n := by
  cases c <;> simp [members]

theorem members_self (cs : List Cell) : members cs.length (.struct cs) = cs ∧ members cs.length (.arr cs) = cs ∧
    ∀ k, members cs.length (.varr k cs) = cs := by
  simp [members]

/-- what a run of finAll does for list of flat types -/
theorem finAll_keep {g : Nat → Cell → List Nat → F} {ts : List Nat} (h : ∀ t ∈ ts, ∀ c l, (g t c l).fin = .ok ∧ (g t c l).live = l) :
    ∀ cs l, (finAll g ts cs l).fin = .ok ∧ (finAll g ts cs l).live = l := by
  induction ts with
  | nil => intro cs l; simp [finAll]
  | cons t ts ih =>
    intro cs l
    cases cs with
    | nil => simp [finAll]
    | cons c cs =>
      have h1 := h t (by simp) c l
      have h2 := ih (fun t ht => h t (by simp [ht])) cs (g t c l).live
      simp only [finAll, h1.1, if_pos]
      rw [h1.2] at h2 ⊢
      exact h2

theorem forall_bound {α : Type} {P : α → Nat → Prop} (l : List α) (h : ∀ a ∈ l, ∃ f0, ∀ f, f0 ≤ f → P a f) :
    ∃ f0, ∀ f, f0 ≤ f → ∀ a ∈ l, P a f := by
  induction l with
  | nil => exact ⟨0, by simp⟩
  | cons a l ih =>
    obtain ⟨f1, h1⟩ := h a (by simp)
    obtain ⟨f2, h2⟩ := ih fun b hb => h b (by simp [hb])
    refine ⟨max f1 f2, fun f hf b hb => ?_⟩
    rcases List.mem_cons.1 hb with rfl | hb
    · exact h1 f (by omega)
    · exact h2 f (by omega) b hb

theorem fini_flat {env : Env} (hs : Sane env) {t : Nat} (h : Flat env t) :
    ∃ f0, ∀ f, f0 ≤ f → ∀ c l, (fini env f t c l).fin = .ok ∧ (fini env f t c l).live = l := by
  induction h with
  | @leaf t h =>
    refine ⟨1, fun f hf c l => ?_⟩
    obtain ⟨g, rfl⟩ : ∃ g, f = g + 1 := ⟨f - 1, by omega⟩
    simp only [fini]
    cases he : env t <;> simp_all
  | ref h _ ih =>
    obtain ⟨f0, ih⟩ := ih
    refine ⟨f0 + 1, fun f hf c l => ?_⟩
    obtain ⟨g, rfl⟩ : ∃ g, f = g + 1 := ⟨f - 1, by omega⟩
    simp only [fini, h]
    exact ih g (by omega) c l
  | @struct t fs h _ ih =>
    obtain ⟨f0, ih⟩ := forall_bound (P := fun fd f => ∀ c l, (fini env f fd.node c l).fin = .ok ∧ (fini env f fd.node c l).live = l) fs ih
    refine ⟨f0 + 1, fun f hf c l => ?_⟩
    obtain ⟨g, rfl⟩ : ∃ g, f = g + 1 := ⟨f - 1, by omega⟩
    simp only [fini, h]
    exact finAll_keep (fun t ht => by
      obtain ⟨fd, hfd, rfl⟩ := List.mem_map.1 ht
      exact ih g (by omega) fd hfd) _ l
  | @arr t n ch h _ ih =>
    obtain ⟨f0, ih⟩ := ih
    obtain ⟨f1, b, h1⟩ := sane_size hs ch
    refine ⟨max f0 f1 + 1, fun f hf c l => ?_⟩
    obtain ⟨g, rfl⟩ : ∃ g, f = g + 1 := ⟨f - 1, by omega⟩
    simp only [fini, h, h1 g (by omega), sizedF]
    cases b
    · simp
    · exact finAll_keep (fun t ht => by
        rw [(List.mem_replicate.1 ht).2]; exact ih g (by omega)) _ l

/-- `l` without the elements of `L` -/
def without (l L : List Nat) : List Nat := l.filter fun x => decide (x ∉ L)

theorem without_nil (l : List Nat) : without l [] = l := by simp [without]
theorem without_append (l A B : List Nat) : without l (A ++ B) = without (without l A) B := by
  simp only [without, List.filter_filter]
  congr 1
  funext x
  simp [Bool.and_comm]
theorem without_one (l : List Nat) (id : Nat) : without l [id] = l.filter (· != id) := by
  simp only [without]
  congr 1
  funext x
  by_cases h : x = id <;> simp [h]
theorem mem_without {l L : List Nat} {x : Nat} : x ∈ without l L ↔ x ∈ l ∧ x ∉ L := by simp [without]

theorem release_ok {id : Nat} {l : List Nat} (h : id ∈ l) (c d : Cell) : release id l c d = ⟨d, without l [id], .ok⟩ := by
  simp [release, h, without_one]

/-- the list of typed cells is finalised -/
def finIts (env : Env) (f : Nat) (its : List (Nat × Cell)) (l : List Nat) : Fs :=
  finAll (fini env f) (its.map (·.1)) (its.map (·.2)) l

def Done (q : Fs) (l L : List Nat) : Prop := q.fin = .ok ∧ q.live = without l L

theorem finIts_cons {env : Env} {f t : Nat} {c : Cell} {rest : List (Nat × Cell)} {l A L : List Nat}
    (h : (fini env f t c l).fin = .ok ∧ (fini env f t c l).live = without l A)
    (hr : Done (finIts env f rest (without l A)) (without l A) L) : Done (finIts env f ((t, c) :: rest) l) l (A ++ L) := by
  simp only [finIts, List.map_cons, finAll, h.1, if_pos, Done] at hr ⊢
  rw [h.2]
  exact ⟨hr.1, by rw [hr.2, without_append]⟩

theorem finIts_one {env : Env} {f t : Nat} {c : Cell} {l A : List Nat} :
    Done (finIts env f [(t, c)] l) l A ↔ ((fini env f t c l).fin = .ok ∧ (fini env f t c l).live = without l A) := by
  simp only [finIts, Done, List.map_cons, List.map_nil, finAll]
  by_cases hok : (fini env f t c l).fin = .ok <;> simp [hok]

theorem zip_fst {α β : Type} : ∀ {a : List α} {b : List β}, a.length ≤ b.length → (a.zip b).map (·.1) = a
  | [], _, _ => by simp
  | _ :: _, [], h => by simp at h
  | x :: a, y :: b, h => by simp [zip_fst (a := a) (b := b) (by simpa using h)]

theorem zip_snd {α β : Type} : ∀ {a : List α} {b : List β}, b.length ≤ a.length → (a.zip b).map (·.2) = b
  | _, [], _ => by simp
  | [], _ :: _, h => by simp at h
  | x :: a, y :: b, h => by simp [zip_snd (a := a) (b := b) (by simpa using h)]

theorem finAll_zip {g : Nat → Cell → List Nat → F} : ∀ (ts : List Nat) (cs : List Cell) (l : List Nat),
    (finAll g ((ts.zip cs).map (·.1)) ((ts.zip cs).map (·.2)) l).fin = (finAll g ts cs l).fin ∧
    (finAll g ((ts.zip cs).map (·.1)) ((ts.zip cs).map (·.2)) l).live = (finAll g ts cs l).live
  | [], cs, l => by simp [finAll]
  | _ :: _, [], l => by simp [finAll]
  | t :: ts, c :: cs, l => by
    simp only [List.zip_cons_cons, List.map_cons, finAll]
    split
    · exact finAll_zip ts cs _
    · exact ⟨rfl, rfl⟩

theorem done_zip {env : Env} {f : Nat} {ts : List Nat} {cs : List Cell} {l A : List Nat}
    (h : Done (finIts env f (ts.zip cs) l) l A) : Done (finAll (fini env f) ts cs l) l A := by
  have := finAll_zip (g := fini env f) ts cs l
  simp only [finIts, Done] at h ⊢
  rw [this.1, this.2] at h
  exact h

theorem nodup_split {A L : List Nat} (h : (A ++ L).Nodup) : A.Nodup ∧ L.Nodup ∧ ∀ x ∈ L, x ∉ A := by
  rw [List.nodup_append] at h
  exact ⟨h.1, h.2.1, fun x hx hxa => h.2.2 x hxa x hx rfl⟩

theorem fini_owns {env : Env} (hs : Sane env) {its : List (Nat × Cell)} {L : List Nat} (h : Owns env its L) :
    ∃ f0, ∀ f, f0 ≤ f → ∀ l, L.Nodup → (∀ x ∈ L, x ∈ l) → Done (finIts env f its l) l L := by
  induction h with
  | nil => exact ⟨0, fun f _ l _ _ => ⟨by simp [finIts, finAll], by simp [finIts, finAll, without_nil]⟩⟩
  | @flat t c rest L h _ ih =>
    obtain ⟨f0, ih⟩ := ih
    obtain ⟨f1, h1⟩ := fini_flat hs h
    refine ⟨max f0 f1, fun f hf l hn hl => ?_⟩
    have := finIts_cons (A := []) (L := L) (rest := rest) (by rw [without_nil]; exact h1 f (by omega) c l) (by
      rw [without_nil]; exact ih f (by omega) l hn hl)
    simpa using this
  | @null t ch rest L h _ ih =>
    obtain ⟨f0, ih⟩ := ih
    refine ⟨f0 + 1, fun f hf l hn hl => ?_⟩
    have := finIts_cons (env := env) (f := f) (t := t) (c := .null) (l := l) (A := []) (L := L) (rest := rest) (by
      obtain ⟨g, rfl⟩ : ∃ g, f = g + 1 := ⟨f - 1, by omega⟩
      simp [fini, h, without_nil]) (by rw [without_nil]; exact ih f (by omega) l hn hl)
    simpa using this
  | @ptr t ch id x A rest L h _ _ ihx ih =>
    obtain ⟨f0, ih⟩ := ih
    obtain ⟨f1, ihx⟩ := ihx
    refine ⟨max f0 f1 + 1, fun f hf l hn hl => ?_⟩
    have h3 : (A ++ id :: L) = (A ++ [id]) ++ L := by simp
    rw [h3] at hn hl ⊢
    obtain ⟨hn1, hn2, hn3⟩ := nodup_split hn
    obtain ⟨hn4, hn5, hn6⟩ := nodup_split hn1
    refine finIts_cons ?_ (ih f (by omega) _ hn2 fun x hx => mem_without.2 ⟨hl x (by simp [hx]), hn3 x hx⟩)
    obtain ⟨g, rfl⟩ : ∃ g, f = g + 1 := ⟨f - 1, by omega⟩
    have hx := ihx g (by omega) l hn4 fun x hx => hl x (by simp [hx])
    simp only [finIts, Done, List.map_cons, List.map_nil, finAll] at hx
    by_cases hok : (fini env g ch x l).fin = .ok
    · simp only [hok, if_true] at hx
      simp only [fini, h, hok, if_true]
      rw [release_ok (by rw [hx.2]; exact mem_without.2 ⟨hl id (by simp), hn6 id (by simp)⟩), hx.2]
      simp [without_append]
    · simp [hok] at hx
  | @ref t ch c A rest L h _ _ ihx ih =>
    obtain ⟨f0, ih⟩ := ih
    obtain ⟨f1, ihx⟩ := ihx
    refine ⟨max f0 f1 + 1, fun f hf l hn hl => ?_⟩
    obtain ⟨hn1, hn2, hn3⟩ := nodup_split hn
    refine finIts_cons ?_ (ih f (by omega) _ hn2 fun x hx => mem_without.2 ⟨hl x (by simp [hx]), hn3 x hx⟩)
    obtain ⟨g, rfl⟩ : ∃ g, f = g + 1 := ⟨f - 1, by omega⟩
    simp only [fini, h]
    exact finIts_one.1 (ihx g (by omega) l hn1 fun x hx => hl x (by simp [hx]))
  | @strNull t rest L h _ ih =>
    obtain ⟨f0, ih⟩ := ih
    refine ⟨f0 + 1, fun f hf l hn hl => ?_⟩
    have := finIts_cons (env := env) (f := f) (t := t) (c := .null) (l := l) (A := []) (L := L) (rest := rest) (by
      obtain ⟨g, rfl⟩ : ∃ g, f = g + 1 := ⟨f - 1, by omega⟩
      simp [fini, h, without_nil]) (by rw [without_nil]; exact ih f (by omega) l hn hl)
    simpa using this
  | @str t id bs rest L h _ ih =>
    obtain ⟨f0, ih⟩ := ih
    refine ⟨f0 + 1, fun f hf l hn hl => ?_⟩
    obtain ⟨hn1, hn2, hn3⟩ := nodup_split (A := [id]) hn
    refine finIts_cons (A := [id]) ?_ (ih f (by omega) _ hn2 fun x hx => mem_without.2 ⟨hl x (by simp [hx]), hn3 x hx⟩)
    obtain ⟨g, rfl⟩ : ∃ g, f = g + 1 := ⟨f - 1, by omega⟩
    simp only [fini, h]
    rw [release_ok (hl id (by simp))]
    simp
  | @struct t fs cs A rest L h hlen _ _ ihx ih =>
    obtain ⟨f0, ih⟩ := ih
    obtain ⟨f1, ihx⟩ := ihx
    refine ⟨max f0 f1 + 1, fun f hf l hn hl => ?_⟩
    obtain ⟨hn1, hn2, hn3⟩ := nodup_split hn
    refine finIts_cons ?_ (ih f (by omega) _ hn2 fun x hx => mem_without.2 ⟨hl x (by simp [hx]), hn3 x hx⟩)
    obtain ⟨g, rfl⟩ : ∃ g, f = g + 1 := ⟨f - 1, by omega⟩
    simp only [fini, h]
    rw [← hlen, (members_self cs).1]
    exact done_zip (ihx g (by omega) l hn1 fun x hx => hl x (by simp [hx]))
  | @dynB0 t n v rest L h _ ih =>
    obtain ⟨f0, ih⟩ := ih
    refine ⟨f0 + 1, fun f hf l hn hl => ?_⟩
    have := finIts_cons (env := env) (f := f) (t := t) (c := .dynB n 0 v) (l := l) (A := []) (L := L) (rest := rest) (by
      obtain ⟨g, rfl⟩ : ∃ g, f = g + 1 := ⟨f - 1, by omega⟩
      simp [fini, h, without_nil]) (by rw [without_nil]; exact ih f (by omega) l hn hl)
    simpa using this
  | @dynB t n a id bs rest L h ha _ ih =>
    obtain ⟨f0, ih⟩ := ih
    refine ⟨f0 + 1, fun f hf l hn hl => ?_⟩
    obtain ⟨hn1, hn2, hn3⟩ := nodup_split (A := [id]) hn
    refine finIts_cons (A := [id]) ?_ (ih f (by omega) _ hn2 fun x hx => mem_without.2 ⟨hl x (by simp [hx]), hn3 x hx⟩)
    obtain ⟨g, rfl⟩ : ∃ g, f = g + 1 := ⟨f - 1, by omega⟩
    simp only [fini, h, if_pos ha]
    rw [release_ok (hl id (by simp))]
    simp
  | @arr t n ch cs A rest L h hs' hlen _ _ ihx ih =>
    obtain ⟨f0, ih⟩ := ih
    obtain ⟨f1, ihx⟩ := ihx
    obtain ⟨f2, hs'⟩ := hs'
    refine ⟨max f2 (max f0 f1) + 1, fun f hf l hn hl => ?_⟩
    obtain ⟨hn1, hn2, hn3⟩ := nodup_split hn
    refine finIts_cons ?_ (ih f (by omega) _ hn2 fun x hx => mem_without.2 ⟨hl x (by simp [hx]), hn3 x hx⟩)
    obtain ⟨g, rfl⟩ : ∃ g, f = g + 1 := ⟨f - 1, by omega⟩
    simp only [fini, h, hs' g (by omega), sizedF]
    subst hlen
    rw [(members_self cs).2.1]
    exact done_zip (ihx g (by omega) l hn1 fun x hx => hl x (by simp [hx]))
  | @arrBad t n ch c rest L h hs' _ ih =>
    obtain ⟨f0, ih⟩ := ih
    obtain ⟨f1, hs'⟩ := hs'
    refine ⟨max f0 f1 + 1, fun f hf l hn hl => ?_⟩
    have := finIts_cons (env := env) (f := f) (t := t) (c := c) (l := l) (A := []) (L := L) (rest := rest) (by
      obtain ⟨g, rfl⟩ : ∃ g, f = g + 1 := ⟨f - 1, by omega⟩
      rcases h with h | h <;> simp [fini, h, without_nil, hs' g (by omega), sizedF]) (by rw [without_nil]; exact ih f (by omega) l hn hl)
    simpa using this
  | @varr t cap ch count es A rest L h hs' hc hlen hx _ ihx ih =>
    obtain ⟨f0, ih⟩ := ih
    obtain ⟨f1, ihx⟩ := ihx
    obtain ⟨f2, b, hb⟩ := sane_size hs ch
    refine ⟨max f2 (max f0 f1) + 1, fun f hf l hn hl => ?_⟩
    obtain ⟨hn1, hn2, hn3⟩ := nodup_split hn
    refine finIts_cons ?_ (ih f (by omega) _ hn2 fun x hx => mem_without.2 ⟨hl x (by simp [hx]), hn3 x hx⟩)
    obtain ⟨g, rfl⟩ : ∃ g, f = g + 1 := ⟨f - 1, by omega⟩
    simp only [fini, h, hb g (by omega)]
    cases b
    · have hA : A = [] := by
        rcases hs' with rfl | ⟨f3, hs'⟩
        · simp only [List.replicate_zero, List.zip_nil_left] at hx
          cases hx; rfl
        · have e1 := hs' (max f2 f3) (by omega)
          rw [hb _ (by omega)] at e1
          simp at e1
      subst hA
      simp [sizedF, without_nil]
    · simp only [sizedF, if_pos hc]
      subst hlen
      rw [(members_self es).2.2]
      exact done_zip (ihx g (by omega) l hn1 fun x hx => hl x (by simp [hx]))
  | @dynA0 t n v es rest L ch h _ ih =>
    obtain ⟨f0, ih⟩ := ih
    refine ⟨f0 + 1, fun f hf l hn hl => ?_⟩
    have := finIts_cons (env := env) (f := f) (t := t) (c := .dynA n 0 v es) (l := l) (A := []) (L := L) (rest := rest) (by
      obtain ⟨g, rfl⟩ : ∃ g, f = g + 1 := ⟨f - 1, by omega⟩
      simp [fini, h, without_nil]) (by rw [without_nil]; exact ih f (by omega) l hn hl)
    simpa using this
  | @dynA t ch k id es A rest L h hs' hk hlen _ _ ihx ih =>
    obtain ⟨f0, ih⟩ := ih
    obtain ⟨f1, ihx⟩ := ihx
    obtain ⟨f2, hs'⟩ := hs'
    refine ⟨max f2 (max f0 f1) + 1, fun f hf l hn hl => ?_⟩
    have h3 : (A ++ id :: L) = (A ++ [id]) ++ L := by simp
    rw [h3] at hn hl ⊢
    obtain ⟨hn1, hn2, hn3⟩ := nodup_split hn
    obtain ⟨hn4, hn5, hn6⟩ := nodup_split hn1
    refine finIts_cons ?_ (ih f (by omega) _ hn2 fun x hx => mem_without.2 ⟨hl x (by simp [hx]), hn3 x hx⟩)
    obtain ⟨g, rfl⟩ : ∃ g, f = g + 1 := ⟨f - 1, by omega⟩
    have hx := done_zip (ihx g (by omega) l hn4 fun x hx => hl x (by simp [hx]))
    simp only [fini, h, if_pos hk, hs' g (by omega), sizedF, hlen, Nat.le_refl, if_true, hx.1]
    rw [release_ok (by rw [hx.2]; exact mem_without.2 ⟨hl id (by simp), hn6 id (by simp)⟩), hx.2]
    simp [without_append]

/-! ### init -/

theorem zipM_owns {env : Env} {g : Nat → Cell → Option Cell} (hg : ∀ t c c', g t c = some c' → Owns env [(t, c')] []) :
    ∀ (ts : List Nat) (cs cs' : List Cell), ts.length = cs.length → zipM g ts cs = some cs' →
      cs'.length = cs.length ∧ Owns env (ts.zip cs') []
  | [], [], cs', _, h => by simp only [zipM, Option.some.injEq] at h; subst h; exact ⟨rfl, .nil⟩
  | [], _ :: _, _, hl, _ => by simp at hl
  | _ :: _, [], _, hl, _ => by simp at hl
  | t :: ts, c :: cs, cs', hl, h => by
    simp only [zipM, Option.bind_eq_some_iff, Option.map_eq_some_iff] at h
    obtain ⟨x, hx, ys, hys, rfl⟩ := h
    obtain ⟨h1, h2⟩ := zipM_owns hg ts cs ys (by simpa using hl) hys
    refine ⟨by simp [h1], ?_⟩
    have := (hg t c x hx).cons h2
    simpa using this

theorem init_owns {env : Env} (f : Nat) : ∀ (t : Nat) (c c' : Cell), init env f t c = some c' → Owns env [(t, c')] [] := by
  induction f with
  | zero => intro t c c' h; simp [init] at h
  | succ f ih =>
    intro t c c' h
    simp only [init] at h
    cases he : env t with
    | void => exact .flat (.leaf (by simp [he])) .nil
    | int k => exact .flat (.leaf (by simp [he])) .nil
    | raw k => exact .flat (.leaf (by simp [he])) .nil
    | fixedBytes k => exact .flat (.leaf (by simp [he])) .nil
    | varBytes k => exact .flat (.leaf (by simp [he])) .nil
    | bytesNil k => exact .flat (.leaf (by simp [he])) .nil
    | unknown => exact .flat (.leaf (by simp [he])) .nil
    | pointer ch => simp only [he, Option.some.injEq] at h; subst h; exact .null he .nil
    | string => simp only [he, Option.some.injEq] at h; subst h; exact .strNull he .nil
    | dynBytes => simp only [he, Option.some.injEq] at h; subst h; exact .dynB0 he .nil
    | dynArray ch => simp only [he, Option.some.injEq] at h; subst h; exact .dynA0 ch he .nil
    | reference ch =>
      simp only [he] at h
      simpa using Owns.ref he (ih _ _ _ h) .nil
    | struct fs =>
      simp only [he, Option.map_eq_some_iff] at h
      obtain ⟨cs, hcs, rfl⟩ := h
      obtain ⟨h1, h2⟩ := zipM_owns ih _ _ _ (by simp [members_length]) hcs
      simpa using Owns.struct he (by rw [h1, members_length]) h2 .nil
    | fixedArray n ch =>
      simp only [he, Option.bind_eq_some_iff] at h
      obtain ⟨b, hb, h⟩ := h
      cases b
      · exact .arrBad (.inl he) ⟨f, sizeOk_stable hb⟩ .nil
      · simp only [if_true, Option.map_eq_some_iff] at h
        obtain ⟨cs, hcs, rfl⟩ := h
        obtain ⟨h1, h2⟩ := zipM_owns ih _ _ _ (by simp [members_length]) hcs
        simpa using Owns.arr he ⟨f, sizeOk_stable hb⟩ (by rw [h1, members_length]) h2 .nil
    | varArray cap ch =>
      simp only [he, Option.some.injEq] at h
      subst h
      simpa using Owns.varr (A := []) he (.inl rfl) (Nat.zero_le _) (members_length _ _) (by simpa using Owns.nil) .nil

/-! ### unmarshal -/

/-- from `h` to `h'` exactly the allocations `A` were added -/
structure Grow (h h' : Heap) (A : List Nat) : Prop where
  live : h'.live = A ++ h.live
  next : h.next ≤ h'.next
  fresh : ∀ x ∈ A, h.next ≤ x ∧ x < h'.next
  nodup : A.Nodup

theorem Grow.refl (h : Heap) : Grow h h [] := ⟨by simp, Nat.le_refl _, by simp, by simp⟩

theorem Grow.trans {h h' h'' : Heap} {A B : List Nat} (a : Grow h h' A) (b : Grow h' h'' B) : Grow h h'' (B ++ A) := by
  refine ⟨by simp [b.live, a.live], Nat.le_trans a.next b.next, fun x hx => ?_, ?_⟩
  · have h1 := a.next
    have h2 := b.next
    rcases List.mem_append.1 hx with hx | hx
    · have := b.fresh x hx; omega
    · have := a.fresh x hx; omega
  · rw [List.nodup_append]
    refine ⟨b.nodup, a.nodup, fun x hx y hy => ?_⟩
    have h1 := b.fresh x hx
    have h2 := a.fresh y hy
    omega

theorem malloc_some {h h' : Heap} {id : Nat} (he : h.malloc = (some id, h')) : Grow h h' [id] := by
  simp only [Heap.malloc] at he
  split at he
  · simp only [Prod.mk.injEq, Option.some.injEq] at he
    obtain ⟨rfl, rfl⟩ := he
    exact ⟨by simp, by simp, by simp, by simp⟩
  · simp at he

theorem malloc_none {h h' : Heap} (he : h.malloc = (none, h')) : Grow h h' [] := by
  simp only [Heap.malloc] at he
  split at he
  · simp at he
  · simp only [Prod.mk.injEq, true_and] at he
    subst he
    exact ⟨by simp, by simp, by simp, by simp⟩

def Res.isOk {α : Type} : Res α → Bool
  | .ok _ => true
  | _ => false

theorem isOk_map {α β : Type} (f : α → β) (r : Res α) : (r.map f).isOk = r.isOk := by cases r <;> rfl

/-- all the bytes that are left -/
abbrev left (s : Chain) : Nat := s.flatten.length

theorem getBytes_left {s : Chain} : ∀ {n : Nat} {bs : List Byte} {s' : Chain}, getBytes s n = .ok (bs, s') → left s' + n = left s := by
  induction s with
  | nil => intro n bs s' h; simp [getBytes] at h
  | cons x rest ih =>
    intro n bs s' h
    by_cases hn : n ≤ x.length
    · rw [getBytes_le hn] at h
      simp only [Out.ok.injEq, Prod.mk.injEq] at h
      obtain ⟨_, rfl⟩ := h
      simp [left]; omega
    · cases rest with
      | nil => simp [getBytes, hn] at h
      | cons y rest =>
        rw [getBytes_more hn] at h
        obtain ⟨⟨b, s2⟩, h1, h2⟩ := bind_ok h
        simp only [Out.ok.injEq, Prod.mk.injEq] at h2
        obtain ⟨_, rfl⟩ := h2
        have := ih h1
        simp only [left, List.flatten_cons, List.length_append] at this ⊢
        omega

theorem get_left {s : Chain} {n : Nat} {bs : List Byte} {s' : Chain} {m : Nat} (h : get s n = .ok (bs, s', m)) :
    left s' + n = left s := by
  obtain ⟨⟨b, c⟩, h1, h2⟩ := bind_ok h
  simp only [Out.ok.injEq, Prod.mk.injEq] at h2
  obtain ⟨_, rfl, _⟩ := h2
  exact getBytes_left h1

/-- What is assumed of a set of descriptors. `D`: the types that occur in allocated memory or in the elements
    of a VAR_ARRAY; `D` is closed under going to the parts. Optional fields there have no pointers.
    `all`: whether also the failing calls are looked at, in which case the types of `D` have no pointers. -/
structure Setting (env : Env) (ds : Nat → Bool) (D : Nat → Prop) (all : Prop) : Prop where
  ptr : ∀ t ch, env t = .pointer ch → D ch
  dyn : ∀ t ch, env t = .dynArray ch → D ch
  var : ∀ t cap ch, env t = .varArray cap ch → D ch
  ref : ∀ t ch, D t → env t = .reference ch → D ch
  arr : ∀ t n ch, D t → env t = .fixedArray n ch → D ch
  struct : ∀ t fs, D t → env t = .struct fs → ∀ fd ∈ fs, D fd.node ∧ (fd.isHave = none ∨ Flat env fd.node)
  flat : all → ∀ t, D t → Flat env t
  noStr : all → ∀ t, ds t = false

def Pre (env : Env) (D : Nat → Prop) (t : Nat) (c : Cell) : Prop := D t ∨ Owns env [(t, c)] []

def Post (env : Env) (all : Prop) (t : Nat) (s : Chain) (h : Heap) (r : R) : Prop :=
  (r.res.isOk = true → left r.chain ≤ left s) ∧
  ∃ A, Grow h r.heap A ∧ (r.res.isOk = true ∨ all → ∃ L, Owns env [(t, r.cell)] L ∧ L.Perm A)

def Posts (env : Env) (all : Prop) (ts : List Nat) (n : Nat) (s : Chain) (h : Heap) (q : Rs) : Prop :=
  (q.res.isOk = true → left q.chain ≤ left s) ∧ q.cells.length = n ∧
  ∃ A, Grow h q.heap A ∧ (q.res.isOk = true ∨ all → ∃ L, Owns env (ts.zip q.cells) L ∧ L.Perm A)

/-- unchanged memory, no allocation -/
theorem post_same {env : Env} {D : Nat → Prop} {all : Prop} {t : Nat} {c : Cell} {s s' : Chain} {h h' : Heap} {r : Res (Val × Nat)}
    (hr : r.isOk = false) (hp : all → Owns env [(t, c)] []) (hh : Grow h h' []) : Post env all t s h ⟨c, s', h', r⟩ :=
  ⟨by simp [hr], [], hh, fun ha => ⟨[], hp (ha.resolve_left (by simp [hr])), .refl _⟩⟩

theorem post_after {α : Type} {env : Env} {all : Prop} {t : Nat} {c : Cell} {s s' : Chain} {h h' : Heap} {x : Out α} {k : α → R}
    (hb : ∀ r : Res (Val × Nat), r.isOk = false → Post env all t s h ⟨c, s', h', r⟩)
    (hk : ∀ a, x = .ok a → Post env all t s h (k a)) : Post env all t s h (after x c s' h' k) := by
  cases x with
  | ok a => exact hk a rfl
  | err e => exact hb _ rfl
  | ub => exact hb _ rfl
  | bogus => exact hb _ rfl
  | more => exact hb _ rfl

theorem post_sized {env : Env} {all : Prop} {t : Nat} {c : Cell} {s s' : Chain} {h : Heap} {x : Option Bool} {bad k : R}
    (hb : Post env all t s h ⟨c, s', h, .more⟩) (h1 : x = some false → Post env all t s h bad)
    (h2 : x = some true → Post env all t s h k) : Post env all t s h (sized x c s' h bad k) := by
  rcases x with _ | _ | _
  · exact hb
  · exact h1 rfl
  · exact h2 rfl

theorem post_alloc {env : Env} {all : Prop} {t : Nat} {c : Cell} {s s' : Chain} {h : Heap} {k : Nat → Heap → R}
    (hb : all → Owns env [(t, c)] []) (hk : ∀ id h', h.malloc = (some id, h') → Post env all t s h (k id h')) :
    Post env all t s h (alloc c s' h k) := by
  rcases hm : h.malloc with ⟨_ | id, h'⟩
  · simp only [alloc, hm]
    exact post_same (D := fun _ => True) rfl hb (malloc_none hm)
  · simp only [alloc, hm]
    exact hk id h' hm

theorem flat_post {env : Env} {all : Prop} {t : Nat} {s : Chain} {h : Heap} {r : R} (hf : Flat env t)
    (hl : r.res.isOk = true → left r.chain ≤ left s) (hh : r.heap = h) : Post env all t s h r :=
  ⟨hl, [], by rw [hh]; exact .refl _, fun _ => ⟨[], .flat hf .nil, .refl _⟩⟩

theorem plain_left {c : Cell} {s : Chain} {h : Heap} {n : Nat} {v : List Byte → Val} :
    ((plain c s h n v).res.isOk = true → left (plain c s h n v).chain ≤ left s) ∧ (plain c s h n v).heap = h := by
  simp only [plain]
  cases hg : get s n with
  | ok a => obtain ⟨bs, s', m⟩ := a
            have := get_left hg
            simp only [after]
            exact ⟨fun _ => by omega, trivial⟩
  | _ => simp [after, Res.isOk]

def FPre (env : Env) (D : Nat → Prop) : List Field → List Cell → Prop
  | fd :: fs, c :: cs => ((D fd.node ∧ (fd.isHave = none ∨ Flat env fd.node)) ∨ Owns env [(fd.node, c)] []) ∧ FPre env D fs cs
  | [], [] => True
  | _, _ => False

theorem FPre.length {env : Env} {D : Nat → Prop} : ∀ {fs cs}, FPre env D fs cs → fs.length = cs.length
  | [], [], _ => rfl
  | _ :: fs, _ :: cs, h => by simp [FPre.length (fs := fs) (cs := cs) h.2]

theorem FPre.rest {env : Env} {ds : Nat → Bool} {D : Nat → Prop} {all : Prop} (S : Setting env ds D all) (ha : all) :
    ∀ {fs cs}, FPre env D fs cs → Owns env ((fs.map (·.node)).zip cs) []
  | [], [], _ => .nil
  | fd :: fs, c :: cs, h => by
    have h2 := FPre.rest S ha (fs := fs) (cs := cs) h.2
    have h1 : Owns env [(fd.node, c)] [] := by
      rcases h.1 with ⟨h1, _⟩ | h1
      · exact .flat (S.flat ha _ h1) .nil
      · exact h1
    simpa using h1.cons h2

theorem fields_post {env : Env} {ds : Nat → Bool} {D : Nat → Prop} {all : Prop} (S : Setting env ds D all)
    {g : Nat → Cell → Chain → Heap → R}
    (hg : ∀ t c s h, Pre env D t c → ((∀ t, ds t = false) ∨ left s ≤ 65536) → Post env all t s h (g t c s h)) :
    ∀ (fs : List Field) (prev : List Val) (cs : List Cell) (s : Chain) (h : Heap), FPre env D fs cs →
      ((∀ t, ds t = false) ∨ left s ≤ 65536) → Posts env all (fs.map (·.node)) cs.length s h (mFieldsU g fs prev cs s h)
  | [], prev, [], s, h, _, _ => ⟨fun _ => by simp [mFieldsU], by simp [mFieldsU], [], by simpa [mFieldsU] using Grow.refl h,
      fun _ => ⟨[], by simpa [mFieldsU] using Owns.nil, .refl _⟩⟩
  | fd :: fs, prev, c :: cs, s, h, hp, hs => by
    simp only [mFieldsU]
    by_cases hh : fd.has prev = true
    · rw [if_pos hh]
      have h1 := hg fd.node c s h (hp.1.imp (·.1) id) hs
      obtain ⟨hl, A, hA, hO⟩ := h1
      cases hr : (g fd.node c s h).res with
      | ok a =>
        obtain ⟨v, n⟩ := a
        rw [hr] at hl hO
        have hl := hl rfl
        obtain ⟨L, hL, hLA⟩ := hO (.inl rfl)
        obtain ⟨hl2, hn2, B, hB, hO2⟩ := fields_post S hg fs (prev ++ [v]) cs (g fd.node c s h).chain (g fd.node c s h).heap hp.2
          (hs.imp id fun h => by omega)
        refine ⟨?_, by simp [hn2], B ++ A, hA.trans hB, ?_⟩
        · simp only [isOk_map]
          intro ho
          have := hl2 ho
          omega
        · simp only [isOk_map]
          intro ho
          obtain ⟨M, hM, hMB⟩ := hO2 ho
          exact ⟨L ++ M, by simpa using hL.cons hM, (List.perm_append_comm).trans (hMB.append hLA)⟩
      | _ =>
        rw [hr] at hO
        refine ⟨by simp [Res.isOk, Res.map], by simp, A, hA, fun ha => ?_⟩
        have ha : all := by simpa [Res.isOk, Res.map] using ha
        obtain ⟨L, hL, hLA⟩ := hO (.inr ha)
        exact ⟨L, by simpa using hL.cons (hp.2.rest S ha), hLA⟩
    · rw [if_neg hh]
      obtain ⟨hl2, hn2, B, hB, hO2⟩ := fields_post S hg fs (prev ++ [.absent]) cs s h hp.2 hs
      have hc : Owns env [(fd.node, c)] [] := by
        rcases hp.1 with ⟨_, h1 | h1⟩ | h1
        · simp [Field.has, h1] at hh
        · exact .flat h1 .nil
        · exact h1
      refine ⟨by simpa only [isOk_map] using hl2, by simp [hn2], B, hB, ?_⟩
      simp only [isOk_map]
      intro ho
      obtain ⟨M, hM, hMB⟩ := hO2 ho
      exact ⟨M, by simpa using hc.cons hM, hMB⟩

theorem elems_rest {env : Env} {ds : Nat → Bool} {D : Nat → Prop} {all : Prop} (S : Setting env ds D all) (ha : all) {ch : Nat} :
    ∀ {k : Nat} {cs : List Cell}, (∀ c ∈ cs.take k, Pre env D ch c) → Owns env ((List.replicate k ch).zip cs) []
  | 0, _, _ => by simpa using Owns.nil
  | _ + 1, [], _ => by simpa using Owns.nil
  | k + 1, c :: cs, h => by
    have h1 : Owns env [(ch, c)] [] := by
      rcases h c (by simp) with h1 | h1
      · exact .flat (S.flat ha _ h1) .nil
      · exact h1
    have h2 := elems_rest S ha (k := k) (cs := cs) fun x hx => h x (by simp [hx])
    simpa [List.replicate_succ] using h1.cons h2

theorem elems_post {env : Env} {ds : Nat → Bool} {D : Nat → Prop} {all : Prop} (S : Setting env ds D all) {ch : Nat}
    {g : Cell → Chain → Heap → R}
    (hg : ∀ c s h, Pre env D ch c → ((∀ t, ds t = false) ∨ left s ≤ 65536) → Post env all ch s h (g c s h)) :
    ∀ (k : Nat) (cs : List Cell) (s : Chain) (h : Heap), (∀ c ∈ cs.take k, Pre env D ch c) →
      ((∀ t, ds t = false) ∨ left s ≤ 65536) → Posts env all (List.replicate k ch) cs.length s h (mElemsU g k cs s h)
  | 0, cs, s, h, _, _ => ⟨fun _ => by simp [mElemsU], by simp [mElemsU], [], by simpa [mElemsU] using Grow.refl h,
      fun _ => ⟨[], by simpa [mElemsU] using Owns.nil, .refl _⟩⟩
  | _ + 1, [], s, h, _, _ => ⟨fun _ => by simp [mElemsU], by simp [mElemsU], [], by simpa [mElemsU] using Grow.refl h,
      fun _ => ⟨[], by simpa [mElemsU] using Owns.nil, .refl _⟩⟩
  | k + 1, c :: cs, s, h, hp, hs => by
    simp only [mElemsU]
    obtain ⟨hl, A, hA, hO⟩ := hg c s h (hp c (by simp)) hs
    have hp2 : ∀ c ∈ cs.take k, Pre env D ch c := fun x hx => hp x (by simp [hx])
    cases hr : (g c s h).res with
    | ok a =>
      obtain ⟨v, n⟩ := a
      rw [hr] at hl hO
      have hl := hl rfl
      obtain ⟨L, hL, hLA⟩ := hO (.inl rfl)
      obtain ⟨hl2, hn2, B, hB, hO2⟩ := elems_post S hg k cs (g c s h).chain (g c s h).heap hp2
        (hs.imp id fun h => by omega)
      refine ⟨?_, by simp [hn2], B ++ A, hA.trans hB, ?_⟩
      · simp only [isOk_map]
        intro ho
        have := hl2 ho
        omega
      · simp only [isOk_map]
        intro ho
        obtain ⟨M, hM, hMB⟩ := hO2 ho
        exact ⟨L ++ M, by simpa [List.replicate_succ] using hL.cons hM, (List.perm_append_comm).trans (hMB.append hLA)⟩
    | _ =>
      rw [hr] at hO
      refine ⟨by simp [Res.isOk, Res.map], by simp, A, hA, fun ha => ?_⟩
      have ha : all := by simpa [Res.isOk, Res.map] using ha
      obtain ⟨L, hL, hLA⟩ := hO (.inr ha)
      exact ⟨L, by simpa [List.replicate_succ] using hL.cons (elems_rest S ha hp2), hLA⟩

/-! Inversions of `Owns` -/

theorem Owns.split {env : Env} {t : Nat} {c : Cell} {rest : List (Nat × Cell)} {L : List Nat} (h : Owns env ((t, c) :: rest) L) :
    ∃ A B, L = A ++ B ∧ Owns env [(t, c)] A ∧ Owns env rest B := by
  cases h with
  | flat h hr => exact ⟨[], _, rfl, .flat h .nil, hr⟩
  | null h hr => exact ⟨[], _, rfl, .null h .nil, hr⟩
  | ptr h hx hr => exact ⟨_ ++ [_], _, by simp, .ptr h hx .nil, hr⟩
  | ref h hx hr => exact ⟨_, _, rfl, by simpa using Owns.ref h hx .nil, hr⟩
  | strNull h hr => exact ⟨[], _, rfl, .strNull h .nil, hr⟩
  | str h hr => exact ⟨[_], _, by simp, .str h .nil, hr⟩
  | struct h hl hx hr => exact ⟨_, _, rfl, by simpa using Owns.struct h hl hx .nil, hr⟩
  | dynB0 h hr => exact ⟨[], _, rfl, .dynB0 h .nil, hr⟩
  | dynB h ha hr => exact ⟨[_], _, by simp, .dynB h ha .nil, hr⟩
  | arr h hs hl hx hr => exact ⟨_, _, rfl, by simpa using Owns.arr h hs hl hx .nil, hr⟩
  | arrBad h hs hr => exact ⟨[], _, rfl, .arrBad h hs .nil, hr⟩
  | varr h hs hc hl hx hr => exact ⟨_, _, rfl, by simpa using Owns.varr h hs hc hl hx .nil, hr⟩
  | dynA0 ch h hr => exact ⟨[], _, rfl, .dynA0 ch h .nil, hr⟩
  | dynA h hs hk hl hx hr => exact ⟨_ ++ [_], _, by simp, .dynA h hs hk hl hx .nil, hr⟩

theorem flat_struct {env : Env} {t : Nat} {fs : List Field} (h : Flat env t) (he : env t = .struct fs) : ∀ fd ∈ fs, Flat env fd.node := by
  cases h <;> simp_all
theorem flat_ref {env : Env} {t ch : Nat} (h : Flat env t) (he : env t = .reference ch) : Flat env ch := by
  cases h <;> simp_all
theorem flat_arr {env : Env} {t n ch : Nat} (h : Flat env t) (he : env t = .fixedArray n ch) : Flat env ch := by
  cases h <;> simp_all

theorem Owns.ref_inv {env : Env} {t ch : Nat} {c : Cell} (h : Owns env [(t, c)] []) (he : env t = .reference ch) : Owns env [(ch, c)] [] := by
  generalize hL : ([] : List Nat) = L at h
  cases h with
  | flat h hr => rw [← hL]; exact .flat (flat_ref h he) .nil
  | ref h hx hr =>
    rw [he] at h
    simp only [Node.reference.injEq] at h
    subst h
    have := List.append_eq_nil_iff.1 hL.symm
    rw [this.1] at hx
    exact hL ▸ hx
  | null h hr => simp [he] at h
  | ptr h hx hr => simp [he] at h
  | strNull h hr => simp [he] at h
  | str h hr => simp [he] at h
  | struct h hl hx hr => simp [he] at h
  | dynB0 h hr => simp [he] at h
  | dynB h ha hr => simp [he] at h
  | arr h hs hl hx hr => simp [he] at h
  | arrBad h hs hr => simp [he] at h
  | varr h hs hc hl hx hr => simp [he] at h
  | dynA0 ch h hr => simp [he] at h
  | dynA h hs hk hl hx hr => simp [he] at h

theorem fpre_flat {env : Env} {D : Nat → Prop} : ∀ {fs : List Field} {cs : List Cell}, fs.length = cs.length →
    (∀ fd ∈ fs, Flat env fd.node) → FPre env D fs cs
  | [], [], _, _ => trivial
  | [], _ :: _, h, _ => by simp at h
  | _ :: _, [], h, _ => by simp at h
  | fd :: fs, c :: cs, h, hf => ⟨.inr (.flat (hf fd (by simp)) .nil), fpre_flat (by simpa using h) fun x hx => hf x (by simp [hx])⟩

theorem fpre_dense {env : Env} {D : Nat → Prop} : ∀ {fs : List Field} {cs : List Cell}, fs.length = cs.length →
    (∀ fd ∈ fs, D fd.node ∧ (fd.isHave = none ∨ Flat env fd.node)) → FPre env D fs cs
  | [], [], _, _ => trivial
  | [], _ :: _, h, _ => by simp at h
  | _ :: _, [], h, _ => by simp at h
  | fd :: fs, c :: cs, h, hf => ⟨.inl (hf fd (by simp)), fpre_dense (by simpa using h) fun x hx => hf x (by simp [hx])⟩

theorem fpre_owns {env : Env} {D : Nat → Prop} : ∀ {fs : List Field} {cs : List Cell}, fs.length = cs.length →
    Owns env ((fs.map (·.node)).zip cs) [] → FPre env D fs cs
  | [], [], _, _ => trivial
  | [], _ :: _, h, _ => by simp at h
  | _ :: _, [], h, _ => by simp at h
  | fd :: fs, c :: cs, h, ho => by
    simp only [List.map_cons, List.zip_cons_cons] at ho
    obtain ⟨A, B, hAB, h1, h2⟩ := ho.split
    have := List.append_eq_nil_iff.1 hAB.symm
    rw [this.1] at h1
    rw [this.2] at h2
    exact ⟨.inr h1, fpre_owns (by simpa using h) h2⟩

theorem struct_pre {env : Env} {ds : Nat → Bool} {D : Nat → Prop} {all : Prop} (S : Setting env ds D all) {t : Nat} {fs : List Field}
    {c : Cell} (he : env t = .struct fs) (hp : Pre env D t c) : FPre env D fs (members fs.length c) := by
  rcases hp with hp | hp
  · exact fpre_dense (members_length _ _).symm (S.struct t fs hp he)
  · generalize hL : ([] : List Nat) = L at hp
    cases hp with
    | flat h hr => exact fpre_flat (members_length _ _).symm (flat_struct h he)
    | struct h hl hx hr =>
      rw [he] at h
      simp only [Node.struct.injEq] at h
      subst h
      have := List.append_eq_nil_iff.1 hL.symm
      rw [this.1] at hx
      rw [← hl, (members_self _).1]
      exact fpre_owns hl.symm hx
    | null h hr => simp [he] at h
    | ptr h hx hr => simp [he] at h
    | ref h hx hr => simp [he] at h
    | strNull h hr => simp [he] at h
    | str h hr => simp [he] at h
    | dynB0 h hr => simp [he] at h
    | dynB h ha hr => simp [he] at h
    | arr h hs hl hx hr => simp [he] at h
    | arrBad h hs hr => simp [he] at h
    | varr h hs hc hl hx hr => simp [he] at h
    | dynA0 ch h hr => simp [he] at h
    | dynA h hs hk hl hx hr => simp [he] at h

theorem elems_owns {env : Env} {ch : Nat} : ∀ {k : Nat} {cs : List Cell}, cs.length = k → Owns env ((List.replicate k ch).zip cs) [] →
    ∀ c ∈ cs, Owns env [(ch, c)] []
  | 0, [], _, _ => by simp
  | 0, _ :: _, h, _ => by simp at h
  | _ + 1, [], h, _ => by simp at h
  | k + 1, c :: cs, h, ho => by
    simp only [List.replicate_succ, List.zip_cons_cons] at ho
    obtain ⟨A, B, hAB, h1, h2⟩ := ho.split
    have := List.append_eq_nil_iff.1 hAB.symm
    rw [this.1] at h1
    rw [this.2] at h2
    intro x hx
    rcases List.mem_cons.1 hx with rfl | hx
    · exact h1
    · exact elems_owns (by simpa using h) h2 x hx

theorem arr_pre {env : Env} {ds : Nat → Bool} {D : Nat → Prop} {all : Prop} (S : Setting env ds D all) {t n ch f : Nat}
    {c : Cell} (he : env t = .fixedArray n ch) (hsz : sizeOk env f ch = some true) (hp : Pre env D t c) :
    ∀ x ∈ members n c, Pre env D ch x := by
  rcases hp with hp | hp
  · exact fun x _ => .inl (S.arr t n ch hp he)
  · generalize hL : ([] : List Nat) = L at hp
    cases hp with
    | flat h hr => exact fun x _ => .inr (.flat (flat_arr h he) .nil)
    | arr h hs hl hx hr =>
      rw [he] at h
      simp only [Node.fixedArray.injEq] at h
      obtain ⟨rfl, rfl⟩ := h
      have := List.append_eq_nil_iff.1 hL.symm
      rw [this.1] at hx
      intro x hxx
      subst hl
      rw [(members_self _).2.1] at hxx
      exact .inr (elems_owns rfl hx x hxx)
    | arrBad h hs hr =>
      rw [he] at h
      simp only [Node.fixedArray.injEq, reduceCtorEq, or_false] at h
      obtain ⟨rfl, rfl⟩ := h
      obtain ⟨f0, hs⟩ := hs
      have h1 := hs (max f f0) (by omega)
      rw [sizeOk_stable hsz _ (by omega)] at h1
      simp at h1
    | struct h hl hx hr => simp [he] at h
    | null h hr => simp [he] at h
    | ptr h hx hr => simp [he] at h
    | ref h hx hr => simp [he] at h
    | strNull h hr => simp [he] at h
    | str h hr => simp [he] at h
    | dynB0 h hr => simp [he] at h
    | dynB h ha hr => simp [he] at h
    | varr h hs hc hl hx hr => simp [he] at h
    | dynA0 ch h hr => simp [he] at h
    | dynA h hs hk hl hx hr => simp [he] at h

theorem pre_all {env : Env} {ds : Nat → Bool} {D : Nat → Prop} {all : Prop} (S : Setting env ds D all) {t : Nat} {c : Cell}
    (hp : Pre env D t c) : all → Owns env [(t, c)] [] := fun ha => by
  rcases hp with hp | hp
  · exact .flat (S.flat ha _ hp) .nil
  · exact hp

theorem unm_post {be : Bool} {env : Env} {ds : Nat → Bool} {D : Nat → Prop} {all : Prop} (S : Setting env ds D all) (f : Nat) :
    ∀ (t : Nat) (c : Cell) (s : Chain) (h : Heap), Pre env D t c → ((∀ t, ds t = false) ∨ left s ≤ 65536) →
      Post env all t s h (unm be env ds f t c s h) := by
  induction f with
  | zero =>
    intro t c s h hp hs
    exact post_same (D := D) rfl (pre_all S hp) (.refl h)
  | succ f ih =>
    intro t c s h hp hs
    have hall := pre_all S hp
    have hsame : ∀ (s' : Chain) (r : Res (Val × Nat)), r.isOk = false → Post env all t s h ⟨c, s', h, r⟩ := fun s' r hr =>
      post_same (D := D) hr hall (.refl h)
    have hplain : ∀ n v, Flat env t → Post env all t s h (plain c s h n v) := fun n v hf =>
      flat_post hf plain_left.1 plain_left.2
    simp only [unm]
    cases he : env t with
    | void => exact flat_post (.leaf (by simp [he])) (fun _ => Nat.le_refl _) rfl
    | int k => exact hplain _ _ (.leaf (by simp [he]))
    | raw k => exact hplain _ _ (.leaf (by simp [he]))
    | fixedBytes k => exact hplain _ _ (.leaf (by simp [he]))
    | unknown => exact hsame _ _ rfl
    | reference ch =>
      have hp' : Pre env D ch c := by
        rcases hp with hp | hp
        · exact .inl (S.ref t ch hp he)
        · exact .inr (hp.ref_inv he)
      obtain ⟨h1, A, hA, hO⟩ := ih ch c s h hp' hs
      refine ⟨h1, A, hA, fun ha => ?_⟩
      obtain ⟨L, hL, hLA⟩ := hO ha
      exact ⟨L, by simpa using Owns.ref he hL .nil, hLA⟩
    | varBytes cap =>
      refine post_after (fun r hr => hsame s r hr) fun ⟨b, s', n⟩ hg => ?_
      dsimp only
      split
      · exact hsame _ _ rfl
      · refine post_after (fun r hr => hsame s r hr) fun ⟨bs, s'', m⟩ hg' => ?_
        have h1 := get_left hg
        have h2 := get_left hg'
        exact flat_post (.leaf (by simp [he])) (fun _ => by dsimp only; omega) rfl
    | bytesNil cap =>
      refine post_after (fun r hr => hsame s r hr) fun sz hg => ?_
      split
      · exact hsame _ _ rfl
      · exact hplain _ _ (.leaf (by simp [he]))
    | pointer ch =>
      refine post_after (fun r hr => hsame s r hr) fun ⟨b, s', n⟩ hg => ?_
      have h1 := get_left hg
      dsimp only
      split
      · exact ⟨fun _ => by dsimp only; omega, [], .refl h, fun _ => ⟨[], .null he .nil, .refl _⟩⟩
      · refine post_sized (hsame _ _ rfl) (fun _ => hsame _ _ rfl) fun hsz => post_alloc hall fun id h' hm => ?_
        obtain ⟨h2, A, hA, hO⟩ := ih ch .junk s' h' (.inl (S.ptr t ch he)) (hs.imp (fun x => x) fun h => by omega)
        refine ⟨?_, A ++ [id], (malloc_some hm).trans hA, ?_⟩
        · simp only [isOk_map]
          intro ho
          have := h2 ho
          omega
        · simp only [isOk_map]
          intro ho
          obtain ⟨L, hL, hLA⟩ := hO ho
          exact ⟨L ++ [id], .ptr he hL .nil, hLA.append_right _⟩
    | string =>
      refine post_after (fun r hr => hsame s r hr) fun ⟨b, s', n⟩ hg => ?_
      have h1 := get_left hg
      dsimp only
      split
      · exact ⟨fun _ => by dsimp only; omega, [], .refl h, fun _ => ⟨[], .strNull he .nil, .refl _⟩⟩
      · refine post_after (fun r hr => hsame s r hr) fun sz _ => post_alloc hall fun id h' hm => ?_
        have hstr : ∀ bs, Owns env [(t, .str id bs)] [id] := fun bs => .str he .nil
        refine post_after (fun r hr => ⟨by simp [hr], [id], malloc_some hm, fun _ => ⟨[id], hstr _, .refl _⟩⟩) fun ⟨bs, s'', m⟩ hg' => ?_
        have h2 := get_left hg'
        exact ⟨fun _ => by dsimp only; omega, [id], malloc_some hm, fun _ => ⟨[id], hstr _, .refl _⟩⟩
    | struct fs =>
      obtain ⟨h1, h2, A, hA, hO⟩ := fields_post S ih fs [] (members fs.length c) s h (struct_pre S he hp) hs
      refine ⟨by simpa only [isOk_map] using h1, A, hA, ?_⟩
      simp only [isOk_map]
      intro ho
      obtain ⟨L, hL, hLA⟩ := hO ho
      exact ⟨L, by simpa using Owns.struct he (by rw [h2, members_length]) hL .nil, hLA⟩
    | dynBytes =>
      refine post_after (fun r hr => hsame s r hr) fun ⟨b, s', n⟩ hg => ?_
      have h1 := get_left hg
      have hv : ofHost be b < 65536 := by
        have := ofHost_lt be b
        rw [get_length hg] at this
        exact this
      dsimp only
      by_cases hne : (ofHost be b + if ds t = true then 1 else 0) = 0
      · rw [if_pos hne]
        exact ⟨fun _ => by dsimp only; omega, [], .refl h, fun _ => ⟨[], .dynB0 he .nil, .refl _⟩⟩
      · rw [if_neg hne]
        refine post_alloc (fun _ => .dynB0 he .nil) fun id h' hm => ?_
        have hstr : ∀ bs, 0 < (ofHost be b + if ds t = true then 1 else 0) % 65536 →
            Owns env [(t, .dynB (ofHost be b) ((ofHost be b + if ds t = true then 1 else 0) % 65536) (some (id, bs)))] [id] :=
          fun bs ha => .dynB he ha .nil
        have hpos : ds t = false → 0 < (ofHost be b + if ds t = true then 1 else 0) % 65536 := by
          intro hd
          simp only [hd, Bool.false_eq_true, if_false, Nat.add_zero] at hne ⊢
          rw [Nat.mod_eq_of_lt hv]
          omega
        refine post_after (fun r hr => ⟨by simp [hr], [id], malloc_some hm, fun ha =>
          ⟨[id], hstr _ (hpos (S.noStr (ha.resolve_left (by simp [hr])) t)), .refl _⟩⟩) fun ⟨bs, s'', m⟩ hg' => ?_
        have h2 := get_left hg'
        refine ⟨fun _ => by dsimp only; omega, [id], malloc_some hm, fun _ => ⟨[id], hstr _ ?_, .refl _⟩⟩
        rcases hs with hs | hs
        · exact hpos (hs t)
        · have : ofHost be b + 1 < 65536 := by omega
          by_cases hd : ds t = true
          · simp only [hd, if_true]
            rw [Nat.mod_eq_of_lt this]
            omega
          · exact hpos (by simpa using hd)
    | fixedArray k ch =>
      refine post_sized (hsame _ _ rfl) (fun _ => hsame _ _ rfl) fun hsz => ?_
      split
      · obtain ⟨h1, h2, A, hA, hO⟩ := elems_post S (ih ch) k (members k c) s h
          (fun x hx => arr_pre S he hsz hp x (List.mem_of_mem_take hx)) hs
        refine ⟨by simpa only [isOk_map] using h1, A, hA, ?_⟩
        simp only [isOk_map]
        intro ho
        obtain ⟨L, hL, hLA⟩ := hO ho
        exact ⟨L, by simpa using Owns.arr he ⟨f, sizeOk_stable hsz⟩ (by rw [h2, members_length]) hL .nil, hLA⟩
      · exact hsame _ _ rfl
    | varArray cap ch =>
      refine post_sized (hsame _ _ rfl) (fun _ => hsame _ _ rfl) fun hsz => ?_
      refine post_after (fun r hr => hsame s r hr) fun ⟨b, s', n⟩ hg => ?_
      have h0 := get_left hg
      dsimp only
      split
      · exact hsame _ _ rfl
      · rename_i hcap
        obtain ⟨h1, h2, A, hA, hO⟩ := elems_post S (ih ch) (ofHost be b) (members cap c) s' h
          (fun x hx => .inl (S.var t cap ch he)) (hs.imp (fun x => x) fun h => by omega)
        refine ⟨?_, A, hA, ?_⟩
        · simp only [isOk_map]
          intro ho
          have := h1 ho
          omega
        simp only [isOk_map]
        intro ho
        obtain ⟨L, hL, hLA⟩ := hO ho
        exact ⟨L, by simpa using Owns.varr he (.inr ⟨f, sizeOk_stable hsz⟩) (by omega) (by rw [h2, members_length]) hL .nil, hLA⟩
    | dynArray ch =>
      refine post_after (fun r hr => hsame s r hr) fun ⟨b, s', n⟩ hg => ?_
      have h0 := get_left hg
      dsimp only
      have hO0 : Owns env [(t, .dynA 0 0 none [])] [] := .dynA0 ch he .nil
      split
      · exact ⟨fun _ => by dsimp only; omega, [], .refl h, fun _ => ⟨[], hO0, .refl _⟩⟩
      · rename_i hne
        refine post_sized (hsame _ _ rfl) (fun _ => post_same (D := D) rfl (fun _ => hO0) (.refl h)) fun hsz =>
          post_alloc (fun _ => hO0) fun id h' hm => ?_
        obtain ⟨h1, h2, A, hA, hO⟩ := elems_post S (ih ch) (ofHost be b) (List.replicate (ofHost be b) .junk) s' h'
          (fun x hx => .inl (S.dyn t ch he)) (hs.imp (fun x => x) fun h => by omega)
        refine ⟨?_, A ++ [id], (malloc_some hm).trans hA, ?_⟩
        · simp only [isOk_map]
          intro ho
          have := h1 ho
          omega
        simp only [isOk_map]
        intro ho
        obtain ⟨L, hL, hLA⟩ := hO ho
        exact ⟨L ++ [id], .dynA he ⟨f, sizeOk_stable hsz⟩ (by omega) (by simpa using h2) hL .nil, hLA.append_right _⟩

/-! ### What fini leaves behind -/

theorem finAll_clean {env : Env} {g : Nat → Cell → List Nat → F}
    (hg : ∀ t c l, (g t c l).fin = .ok → Owns env [(t, (g t c l).cell)] []) :
    ∀ (ts : List Nat) (cs : List Cell) (l : List Nat), (finAll g ts cs l).fin = .ok →
      (finAll g ts cs l).cells.length = cs.length ∧ Owns env (ts.zip (finAll g ts cs l).cells) []
  | [], cs, l, _ => by simpa [finAll] using Owns.nil
  | _ :: _, [], l, _ => by simpa [finAll] using Owns.nil
  | t :: ts, c :: cs, l, h => by
    simp only [finAll] at h ⊢
    by_cases hok : (g t c l).fin = .ok
    · rw [if_pos hok] at h ⊢
      obtain ⟨h1, h2⟩ := finAll_clean hg ts cs _ h
      exact ⟨by simp [h1], by simpa using (hg t c l hok).cons h2⟩
    · rw [if_neg hok] at h
      exact absurd h hok

theorem release_fin {id : Nat} {l : List Nat} {c d : Cell} (h : (release id l c d).fin = .ok) : (release id l c d).cell = d := by
  simp only [release] at h ⊢
  split at h <;> simp_all

theorem fini_clean {env : Env} (f : Nat) : ∀ (t : Nat) (c : Cell) (l : List Nat), (fini env f t c l).fin = .ok →
    Owns env [(t, (fini env f t c l).cell)] [] := by
  induction f with
  | zero => intro t c l h; simp [fini] at h
  | succ f ih =>
    intro t c l h
    cases he : env t with
    | void => exact .flat (.leaf (by simp [he])) .nil
    | int k => exact .flat (.leaf (by simp [he])) .nil
    | raw k => exact .flat (.leaf (by simp [he])) .nil
    | fixedBytes k => exact .flat (.leaf (by simp [he])) .nil
    | varBytes k => exact .flat (.leaf (by simp [he])) .nil
    | bytesNil k => exact .flat (.leaf (by simp [he])) .nil
    | unknown => exact .flat (.leaf (by simp [he])) .nil
    | pointer ch =>
      simp only [fini, he] at h ⊢
      cases c with
      | null => exact .null he .nil
      | ptr id x =>
        dsimp only at h ⊢
        by_cases hok : (fini env f ch x l).fin = .ok
        · rw [if_pos hok] at h ⊢
          rw [release_fin h]
          exact .null he .nil
        · rw [if_neg hok] at h
          exact absurd h hok
      | _ => simp at h
    | reference ch =>
      simp only [fini, he] at h ⊢
      simpa using Owns.ref he (ih ch c l h) .nil
    | string =>
      simp only [fini, he] at h ⊢
      cases c with
      | null => exact .strNull he .nil
      | str id x =>
        dsimp only at h ⊢
        rw [release_fin h]
        exact .strNull he .nil
      | _ => simp at h
    | struct fs =>
      simp only [fini, he] at h ⊢
      obtain ⟨h1, h2⟩ := finAll_clean ih _ _ _ h
      simpa using Owns.struct he (by rw [h1, members_length]) h2 .nil
    | dynBytes =>
      simp only [fini, he] at h ⊢
      cases c with
      | dynB n a v =>
        dsimp only at h ⊢
        by_cases ha : 0 < a
        · simp only [if_pos ha] at h ⊢
          rcases v with _ | ⟨id, bs⟩
          · simp at h
          · dsimp only at h ⊢
            rw [release_fin h]
            exact .dynB0 he .nil
        · simp only [if_neg ha]
          exact .dynB0 he .nil
      | _ => simp at h
    | fixedArray n ch =>
      simp only [fini, he] at h ⊢
      cases hsz : sizeOk env f ch with
      | none => simp [hsz, sizedF] at h
      | some b =>
        cases b
        · exact .arrBad (.inl he) ⟨f, sizeOk_stable hsz⟩ .nil
        · simp only [hsz, sizedF] at h ⊢
          obtain ⟨h1, h2⟩ := finAll_clean ih _ _ _ h
          simpa using Owns.arr he ⟨f, sizeOk_stable hsz⟩ (by rw [h1, members_length]) h2 .nil
    | varArray cap ch =>
      simp only [fini, he] at h ⊢
      cases hsz : sizeOk env f ch with
      | none => simp [hsz, sizedF] at h
      | some b =>
        cases b
        · exact .arrBad (.inr he) ⟨f, sizeOk_stable hsz⟩ .nil
        · simp only [hsz, sizedF] at h ⊢
          cases c with
          | varr k es =>
            dsimp only at h ⊢
            by_cases hk : k ≤ cap
            · simp only [if_pos hk] at h ⊢
              obtain ⟨h1, h2⟩ := finAll_clean ih _ _ _ h
              simp only [h, if_true]
              simpa using Owns.varr (A := []) he (.inl rfl) (Nat.zero_le _) (by rw [h1, members_length]) (by simpa using Owns.nil) .nil
            · simp [if_neg hk] at h
          | _ => simp at h
    | dynArray ch =>
      simp only [fini, he] at h ⊢
      have hO : Owns env [(t, .dynA 0 0 none [])] [] := .dynA0 ch he .nil
      cases c with
      | dynA n a v es =>
        dsimp only at h ⊢
        by_cases ha : 0 < a
        · simp only [if_pos ha] at h ⊢
          rcases v with _ | id
          · simp at h
          · dsimp only at h ⊢
            by_cases hn : 0 < n
            · simp only [if_pos hn] at h ⊢
              cases hsz : sizeOk env f ch with
              | none => simp [hsz, sizedF] at h
              | some b =>
                cases b
                · simp only [hsz, sizedF] at h ⊢
                  rw [release_fin h]
                  exact hO
                · simp only [hsz, sizedF] at h ⊢
                  by_cases hle : n ≤ es.length
                  · simp only [if_pos hle] at h ⊢
                    by_cases hok : (finAll (fini env f) (List.replicate n ch) es l).fin = .ok
                    · rw [if_pos hok] at h ⊢
                      rw [release_fin h]
                      exact hO
                    · rw [if_neg hok] at h
                      exact absurd h hok
                  · simp [if_neg hle] at h
            · simp only [if_neg hn] at h ⊢
              rw [release_fin h]
              exact hO
        · simp only [if_neg ha]
          exact hO
      | _ => simp at h

/-! ### What is stored, and the agreement with `Marshal.unmarshal` -/

theorem Holds.cons {env : Env} {t : Nat} {c : Cell} {v : Val} {rest : List (Nat × Cell)} {vs : List Val}
    (h : Holds env [(t, c)] [v]) (hr : Holds env rest vs) : Holds env ((t, c) :: rest) (v :: vs) := by
  generalize hi : [(t, c)] = its at h
  generalize hv : [v] = ws at h
  cases h with
  | nil => simp at hi
  | absent _ => simp_all; exact .absent hr
  | void h _ => simp_all; exact .void h hr
  | base h _ => simp_all; exact .base h hr
  | null h _ => simp_all; exact .null h hr
  | ptr h hx _ => simp_all; exact .ptr h hx hr
  | ref h hx _ => simp_all; exact .ref h hx hr
  | strNull h _ => simp_all; exact .strNull h hr
  | str h _ => simp_all; exact .str h hr
  | struct h hl hx _ => simp_all; exact .struct h hl hx hr
  | dynB0 h _ => simp_all; exact .dynB0 h hr
  | dynB h _ => simp_all; exact .dynB h hr
  | arr h hl hx _ => simp_all; exact .arr h hl hx hr
  | varr h hc hl hx _ =>
    simp only [List.cons.injEq, Prod.mk.injEq, and_true] at hi hv
    obtain ⟨⟨rfl, rfl⟩, rfl⟩ := hi
    obtain ⟨rfl, rfl⟩ := hv
    exact .varr h hc hl hx hr
  | dynA0 ch h _ => simp_all; exact .dynA0 ch h hr
  | dynA h hl hx _ =>
    simp only [List.cons.injEq, Prod.mk.injEq, and_true] at hi hv
    obtain ⟨⟨rfl, rfl⟩, rfl⟩ := hi
    obtain ⟨rfl, rfl⟩ := hv
    exact .dynA h hl hx hr

/-- outcome of the memory model as an outcome of `Marshal.unmarshal`; ENOMEM does not exist there -/
def toOut {α : Type} (r : Res (α × Nat)) (s : Chain) : Option (Out (α × Chain × Nat)) :=
  match r with
  | .ok (v, n) => some (.ok (v, s, n))
  | .err e => some (.err e)
  | .enomem => none
  | .ub => some .ub
  | .bogus => some .bogus
  | .more => some .more

/-- what is known of a step: the value is held, and unless memory ran out the outcome is that of `Marshal` -/
def Agree (env : Env) (t : Nat) (r : R) (o : Unm Val) : Prop :=
  (∀ v n, r.res = .ok (v, n) → Holds env [(t, r.cell)] [v]) ∧ (r.res ≠ .enomem → toOut r.res r.chain = some o)

def Agrees (env : Env) (ts : List Nat) (len : Nat) (q : Rs) (o : Unm (List Val)) : Prop :=
  q.cells.length = len ∧
  (∀ vs n, q.res = .ok (vs, n) → vs.length = ts.length ∧ Holds env (ts.zip q.cells) vs) ∧
  (q.res ≠ .enomem → toOut q.res q.chain = some o)

theorem agree_after {α : Type} {env : Env} {t : Nat} {x : Out α} {c : Cell} {s : Chain} {h : Heap} {k : α → R} {k' : α → Unm Val}
    (hk : ∀ a, x = .ok a → Agree env t (k a) (k' a)) : Agree env t (after x c s h k) (x.bind k') := by
  cases x with
  | ok a => exact hk a rfl
  | _ => exact ⟨by simp [after], fun _ => rfl⟩

theorem agree_alloc {env : Env} {t : Nat} {c : Cell} {s : Chain} {h : Heap} {k : Nat → Heap → R} {o : Unm Val}
    (hk : ∀ id h', Agree env t (k id h') o) : Agree env t (alloc c s h k) o := by
  rcases hm : h.malloc with ⟨_ | id, h'⟩
  · simp only [alloc, hm]
    exact ⟨by simp, by simp⟩
  · simp only [alloc, hm]
    exact hk id h'

theorem toOut_map {α β : Type} (r : Res (α × Nat)) (s : Chain) (g : α → β) (n : Nat) {o : Out (α × Chain × Nat)}
    (h : toOut r s = some o) : toOut (r.map fun (v, m) => (g v, n + m)) s = some (o.bind fun (v, c, m) => .ok (g v, c, n + m)) := by
  cases r <;> simp only [toOut, Option.some.injEq, reduceCtorEq] at h <;> subst h <;> rfl

theorem toOut_map0 {α β : Type} (r : Res (α × Nat)) (s : Chain) (g : α → β) {o : Out (α × Chain × Nat)}
    (h : toOut r s = some o) : toOut (r.map fun (v, m) => (g v, m)) s = some (o.bind fun (v, c, m) => .ok (g v, c, m)) := by
  cases r <;> simp only [toOut, Option.some.injEq, reduceCtorEq] at h <;> subst h <;> rfl

theorem map_ok {α β : Type} {r : Res α} {g : α → β} {b : β} (h : r.map g = .ok b) : ∃ a, r = .ok a ∧ g a = b := by
  cases r <;> simp [Res.map] at h ⊢; exact h

theorem map_enomem {α β : Type} {r : Res α} {g : α → β} (h : r.map g ≠ .enomem) : r ≠ .enomem := by
  rintro rfl; exact h rfl

theorem agree_fields {env : Env} {g : Nat → Cell → Chain → Heap → R} {g' : Nat → Chain → Unm Val}
    (hg : ∀ t c s h, Agree env t (g t c s h) (g' t s)) :
    ∀ (fs : List Field) (prev : List Val) (cs : List Cell) (s : Chain) (h : Heap), fs.length = cs.length →
      Agrees env (fs.map (·.node)) cs.length (mFieldsU g fs prev cs s h) (uFields g' fs prev s)
  | [], prev, [], s, h, _ => ⟨rfl, by simpa [mFieldsU] using Holds.nil, fun _ => rfl⟩
  | [], _, _ :: _, _, _, hl => by simp at hl
  | _ :: _, _, [], _, _, hl => by simp at hl
  | fd :: fs, prev, c :: cs, s, h, hl => by
    simp only [mFieldsU, uFields]
    have hl' : fs.length = cs.length := by simpa using hl
    by_cases hh : fd.has prev = true
    · rw [if_pos hh, if_pos hh]
      obtain ⟨h1, h2⟩ := hg fd.node c s h
      cases hr : (g fd.node c s h).res with
      | ok a =>
        obtain ⟨v, n⟩ := a
        rw [hr] at h2
        have h2 := h2 (by simp)
        simp only [toOut, Option.some.injEq] at h2
        obtain ⟨i1, i2, i3⟩ := agree_fields hg fs (prev ++ [v]) cs (g fd.node c s h).chain (g fd.node c s h).heap hl'
        refine ⟨by simp [i1], fun vs m hv => ?_, fun hv => ?_⟩
        · obtain ⟨⟨ws, k⟩, e1, e2⟩ := map_ok hv
          simp only [Prod.mk.injEq] at e2
          obtain ⟨rfl, _⟩ := e2
          obtain ⟨j1, j2⟩ := i2 ws k e1
          exact ⟨by simpa using j1, by simpa using (h1 v n hr).cons j2⟩
        · rw [← h2]
          simp only [Out.bind]
          exact toOut_map _ _ (v :: ·) n (i3 (map_enomem hv))
      | enomem => exact ⟨by simp, by simp [Res.map], by simp [Res.map]⟩
      | err e => rw [hr] at h2; have := h2 (by simp); simp only [toOut, Option.some.injEq] at this; rw [← this]
                 exact ⟨by simp, by simp [Res.map], fun _ => rfl⟩
      | ub => rw [hr] at h2; have := h2 (by simp); simp only [toOut, Option.some.injEq] at this; rw [← this]
              exact ⟨by simp, by simp [Res.map], fun _ => rfl⟩
      | bogus => rw [hr] at h2; have := h2 (by simp); simp only [toOut, Option.some.injEq] at this; rw [← this]
                 exact ⟨by simp, by simp [Res.map], fun _ => rfl⟩
      | more => rw [hr] at h2; have := h2 (by simp); simp only [toOut, Option.some.injEq] at this; rw [← this]
                exact ⟨by simp, by simp [Res.map], fun _ => rfl⟩
    · rw [if_neg hh, if_neg hh]
      obtain ⟨i1, i2, i3⟩ := agree_fields hg fs (prev ++ [.absent]) cs s h hl'
      refine ⟨by simp [i1], fun vs m hv => ?_, fun hv => ?_⟩
      · obtain ⟨⟨ws, k⟩, e1, e2⟩ := map_ok hv
        simp only [Prod.mk.injEq] at e2
        obtain ⟨rfl, _⟩ := e2
        obtain ⟨j1, j2⟩ := i2 ws k e1
        exact ⟨by simpa using j1, by simpa using Holds.absent j2⟩
      · exact toOut_map0 _ _ (.absent :: ·) (i3 (map_enomem hv))

theorem agree_elems {env : Env} {ch : Nat} {g : Cell → Chain → Heap → R} {g' : Chain → Unm Val}
    (hg : ∀ c s h, Agree env ch (g c s h) (g' s)) :
    ∀ (k : Nat) (cs : List Cell) (s : Chain) (h : Heap), k ≤ cs.length →
      Agrees env (List.replicate k ch) cs.length (mElemsU g k cs s h) (uElems g' k s)
  | 0, cs, s, h, _ => ⟨by simp [mElemsU], by simpa [mElemsU] using Holds.nil, fun _ => by simp [mElemsU, uElems, toOut]⟩
  | _ + 1, [], _, _, hl => by simp at hl
  | k + 1, c :: cs, s, h, hl => by
    simp only [mElemsU, uElems]
    have hl' : k ≤ cs.length := by simpa using hl
    obtain ⟨h1, h2⟩ := hg c s h
    cases hr : (g c s h).res with
    | ok a =>
      obtain ⟨v, n⟩ := a
      rw [hr] at h2
      have h2 := h2 (by simp)
      simp only [toOut, Option.some.injEq] at h2
      obtain ⟨i1, i2, i3⟩ := agree_elems hg k cs (g c s h).chain (g c s h).heap hl'
      refine ⟨by simp [i1], fun vs m hv => ?_, fun hv => ?_⟩
      · obtain ⟨⟨ws, k⟩, e1, e2⟩ := map_ok hv
        simp only [Prod.mk.injEq] at e2
        obtain ⟨rfl, _⟩ := e2
        obtain ⟨j1, j2⟩ := i2 ws k e1
        exact ⟨by simpa using j1, by simpa [List.replicate_succ] using (h1 v n hr).cons j2⟩
      · rw [← h2]
        simp only [Out.bind]
        exact toOut_map _ _ (v :: ·) n (i3 (map_enomem hv))
    | enomem => exact ⟨by simp, by simp [Res.map], by simp [Res.map]⟩
    | err e => rw [hr] at h2; have := h2 (by simp); simp only [toOut, Option.some.injEq] at this; rw [← this]
               exact ⟨by simp, by simp [Res.map], fun _ => rfl⟩
    | ub => rw [hr] at h2; have := h2 (by simp); simp only [toOut, Option.some.injEq] at this; rw [← this]
            exact ⟨by simp, by simp [Res.map], fun _ => rfl⟩
    | bogus => rw [hr] at h2; have := h2 (by simp); simp only [toOut, Option.some.injEq] at this; rw [← this]
               exact ⟨by simp, by simp [Res.map], fun _ => rfl⟩
    | more => rw [hr] at h2; have := h2 (by simp); simp only [toOut, Option.some.injEq] at this; rw [← this]
              exact ⟨by simp, by simp [Res.map], fun _ => rfl⟩

theorem agree_plain {env : Env} {t : Nat} {c : Cell} {s : Chain} {h : Heap} {n : Nat} {v : List Byte → Val}
    (ht : (match env t with
      | .int _ | .raw _ | .fixedBytes _ | .varBytes _ | .bytesNil _ => True | _ => False)) :
    Agree env t (plain c s h n v) ((get s n).bind fun (bs, c', m) => .ok (v bs, c', m)) :=
  agree_after fun ⟨bs, s', m⟩ _ => ⟨fun w k hw => by
    simp only [Res.ok.injEq, Prod.mk.injEq] at hw
    rw [← hw.1]
    exact .base ht .nil, fun _ => rfl⟩

theorem agree_ok {env : Env} {t : Nat} {c : Cell} {s : Chain} {h : Heap} {v : Val} {n : Nat} (hh : Holds env [(t, c)] [v]) :
    Agree env t ⟨c, s, h, .ok (v, n)⟩ (.ok (v, s, n)) := ⟨fun w k hw => by
    simp only [Res.ok.injEq, Prod.mk.injEq] at hw
    rw [← hw.1]; exact hh, fun _ => rfl⟩

theorem getBytes_ne {s : Chain} : ∀ {n : Nat} {bs : List Byte} {s' : Chain}, getBytes s n = .ok (bs, s') → s' ≠ [] := by
  induction s with
  | nil => intro n bs s' h; simp [getBytes] at h
  | cons x rest ih =>
    intro n bs s' h
    by_cases hn : n ≤ x.length
    · rw [getBytes_le hn] at h
      simp only [Out.ok.injEq, Prod.mk.injEq] at h
      obtain ⟨_, rfl⟩ := h
      simp
    · cases rest with
      | nil => simp [getBytes, hn] at h
      | cons y rest =>
        rw [getBytes_more hn] at h
        obtain ⟨⟨b, s2⟩, h1, h2⟩ := bind_ok h
        simp only [Out.ok.injEq, Prod.mk.injEq] at h2
        obtain ⟨_, rfl⟩ := h2
        exact ih h1

theorem get_zero {s : Chain} (h : s ≠ []) : get s 0 = .ok ([], s, 0) := by
  cases s with
  | nil => exact absurd rfl h
  | cons x rest => rw [Marshal.get, getBytes_le (Nat.zero_le _)]; rfl

theorem get_ne {s : Chain} {n : Nat} {bs : List Byte} {s' : Chain} {m : Nat} (h : get s n = .ok (bs, s', m)) : s' ≠ [] := by
  obtain ⟨⟨b, c⟩, h1, h2⟩ := bind_ok h
  simp only [Out.ok.injEq, Prod.mk.injEq] at h2
  obtain ⟨_, rfl, _⟩ := h2
  exact getBytes_ne h1

theorem unm_agree {be : Bool} {env : Env} {ds : Nat → Bool} (f : Nat) :
    ∀ (t : Nat) (c : Cell) (s : Chain) (h : Heap), Agree env t (unm be env ds f t c s h) (unmarshal be true env f t s) := by
  induction f with
  | zero => intro t c s h; exact ⟨by simp [unm], fun _ => rfl⟩
  | succ f ih =>
    intro t c s h
    simp only [unm, unmarshal]
    cases he : env t with
    | void => exact agree_ok (.void he .nil)
    | int k => exact agree_plain (by simp [he])
    | raw k => exact agree_plain (by simp [he])
    | fixedBytes k => exact agree_plain (by simp [he])
    | unknown => exact ⟨by simp, fun _ => rfl⟩
    | reference ch =>
      obtain ⟨h1, h2⟩ := ih ch c s h
      exact ⟨fun v n hv => .ref he (h1 v n hv) .nil, h2⟩
    | varBytes cap =>
      refine agree_after fun ⟨b, s', n⟩ hg => ?_
      dsimp only
      split
      · exact ⟨by simp, fun _ => rfl⟩
      · exact agree_after fun ⟨bs, s'', m⟩ hg' => agree_ok (.base (by simp [he]) .nil)
    | bytesNil cap =>
      refine agree_after fun sz hg => ?_
      split
      · exact ⟨by simp, fun _ => rfl⟩
      · exact agree_plain (by simp [he])
    | pointer ch =>
      simp only [Bool.true_eq_false, if_false]
      refine agree_after fun ⟨b, s', n⟩ hg => ?_
      dsimp only
      split
      · exact agree_ok (.null he .nil)
      · rcases hsz : sizeOk env f ch with _ | _ | _
        · exact ⟨by simp [sized], fun _ => rfl⟩
        · exact ⟨by simp [sized], fun _ => rfl⟩
        · refine agree_alloc fun id h' => ?_
          obtain ⟨h1, h2⟩ := ih ch .junk s' h'
          refine ⟨fun v k hv => ?_, fun hv => toOut_map _ _ (fun v => Val.ptr (some v)) n (h2 (map_enomem hv))⟩
          obtain ⟨⟨w, k'⟩, e1, e2⟩ := map_ok hv
          simp only [Prod.mk.injEq] at e2
          rw [← e2.1]
          exact .ptr he (h1 w k' e1) .nil
    | string =>
      simp only [Bool.true_eq_false, if_false]
      refine agree_after fun ⟨b, s', n⟩ hg => ?_
      dsimp only
      split
      · exact agree_ok (.strNull he .nil)
      · refine agree_after fun sz _ => agree_alloc fun id h' => agree_after fun ⟨bs, s'', m⟩ _ => agree_ok (.str he .nil)
    | struct fs =>
      obtain ⟨h1, h2, h3⟩ := agree_fields ih fs [] (members fs.length c) s h (members_length _ _).symm
      refine ⟨fun v k hv => ?_, fun hv => toOut_map0 _ _ Val.struct (h3 (map_enomem hv))⟩
      obtain ⟨⟨w, k'⟩, e1, e2⟩ := map_ok hv
      simp only [Prod.mk.injEq] at e2
      rw [← e2.1]
      exact .struct he (by rw [h1, members_length]) (h2 w k' e1).2 .nil
    | dynBytes =>
      refine agree_after fun ⟨b, s', n⟩ hg => ?_
      dsimp only
      by_cases hne : (ofHost be b + if ds t = true then 1 else 0) = 0
      · rw [if_pos hne]
        have h0 : ofHost be b = 0 := by omega
        rw [h0, get_zero (get_ne hg)]
        exact agree_ok (.dynB0 he .nil)
      · rw [if_neg hne]
        refine agree_alloc fun id h' => agree_after fun ⟨bs, s'', m⟩ hg' => agree_ok ?_
        rw [← get_length hg']
        exact .dynB he .nil
    | fixedArray k ch =>
      dsimp only
      rcases hsz : sizeOk env f ch with _ | _ | _
      · exact ⟨by simp [sized], fun _ => rfl⟩
      · exact ⟨by simp [sized], fun _ => rfl⟩
      · simp only [sized]
        split
        · obtain ⟨h1, h2, h3⟩ := agree_elems (ih ch) k (members k c) s h (by rw [members_length]; omega)
          refine ⟨fun v m hv => ?_, fun hv => toOut_map0 _ _ Val.arr (h3 (map_enomem hv))⟩
          obtain ⟨⟨w, k'⟩, e1, e2⟩ := map_ok hv
          simp only [Prod.mk.injEq] at e2
          rw [← e2.1]
          exact .arr he (by rw [h1, members_length]) (h2 w k' e1).2 .nil
        · exact ⟨by simp, fun _ => rfl⟩
    | varArray cap ch =>
      dsimp only
      rcases hsz : sizeOk env f ch with _ | _ | _
      · exact ⟨by simp [sized], fun _ => rfl⟩
      · exact ⟨by simp [sized], fun _ => rfl⟩
      · simp only [sized]
        refine agree_after fun ⟨b, s', n⟩ hg => ?_
        dsimp only
        split
        · exact ⟨by simp, fun _ => rfl⟩
        · rename_i hcap
          obtain ⟨h1, h2, h3⟩ := agree_elems (ih ch) (ofHost be b) (members cap c) s' h (by rw [members_length]; omega)
          refine ⟨fun v m hv => ?_, fun hv => toOut_map _ _ Val.arr n (h3 (map_enomem hv))⟩
          obtain ⟨⟨w, k'⟩, e1, e2⟩ := map_ok hv
          simp only [Prod.mk.injEq] at e2
          rw [← e2.1]
          obtain ⟨j1, j2⟩ := h2 w k' e1
          simp only [List.length_replicate] at j1
          rw [← j1] at j2 hcap h1 ⊢
          exact .varr he (by omega) (by rw [h1, members_length]) j2 .nil
    | dynArray ch =>
      refine agree_after fun ⟨b, s', n⟩ hg => ?_
      dsimp only
      by_cases h0 : ofHost be b = 0
      · rw [if_pos h0, if_pos h0]
        exact agree_ok (.dynA0 ch he .nil)
      · rw [if_neg h0, if_neg h0]
        rcases hsz : sizeOk env f ch with _ | _ | _
        · exact ⟨by simp [sized], fun _ => rfl⟩
        · exact ⟨by simp [sized], fun _ => rfl⟩
        · refine agree_alloc fun id h' => ?_
          obtain ⟨h1, h2, h3⟩ := agree_elems (ih ch) (ofHost be b) (List.replicate (ofHost be b) .junk) s' h' (by simp)
          refine ⟨fun v m hv => ?_, fun hv => toOut_map _ _ Val.arr n (h3 (map_enomem hv))⟩
          obtain ⟨⟨w, k'⟩, e1, e2⟩ := map_ok hv
          simp only [Prod.mk.injEq] at e2
          rw [← e2.1]
          obtain ⟨j1, j2⟩ := h2 w k' e1
          simp only [List.length_replicate] at j1 h1
          rw [← j1] at j2 h1 ⊢
          exact .dynA he h1 j2 .nil

/-! ### C152: initialising and finalising -/

/-- aosl_init_typed_obj followed by aosl_fini_typed_obj, on whatever memory: safe, and nothing is freed. -/
theorem C152_init_fini {env : Env} (hs : Sane env) {f t : Nat} {c c' : Cell} (h : init env f t c = some c') (l : List Nat) :
    Finishes env t c' l l := by
  obtain ⟨f0, h0⟩ := fini_owns hs (init_owns f t c c' h)
  refine ⟨f0, fun f hf => ?_⟩
  have := finIts_one.1 (h0 f hf l (by simp) (by simp))
  rw [without_nil] at this
  exact this

/-- aosl_init_typed_obj sets numbers to 0, bytes of a fixed number to zeros, and strings, pointers and counted contents to empty. -/
theorem C152_init_zero {env : Env} {f t : Nat} (c : Cell) :
    (∀ k, env t = .int k → init env (f + 1) t c = some (.base (.num 0))) ∧
    (∀ k, env t = .raw k ∨ env t = .fixedBytes k → ∃ bs, init env (f + 1) t c = some (.base (.bytes bs)) ∧ bs.length = k ∧ ∀ b ∈ bs, b = 0) ∧
    (env t = .string → init env (f + 1) t c = some .null) ∧ (∀ ch, env t = .pointer ch → init env (f + 1) t c = some .null) ∧
    (env t = .dynBytes → init env (f + 1) t c = some (.dynB 0 0 none)) ∧ (∀ ch, env t = .dynArray ch → init env (f + 1) t c = some (.dynA 0 0 none [])) := by
  refine ⟨fun k h => by simp [init, h], ?_, fun h => by simp [init, h], fun ch h => by simp [init, h], fun h => by simp [init, h], fun ch h => by simp [init, h]⟩
  rintro k (h | h)
  · exact ⟨List.replicate k 0, by simp [init, h], by simp, by simp⟩
  · exact ⟨List.replicate k 0, by simp [init, h], by simp, by simp⟩

/-- aosl_fini_typed_obj leaves byte strings of any length empty. -/
theorem C152_fini_empty {env : Env} {f t n a : Nat} {v : Option (Nat × List Byte)} {l : List Nat} (h : env t = .dynBytes) (hr : (fini env (f + 1) t (.dynB n a v) l).fin = .ok) :
    (fini env (f + 1) t (.dynB n a v) l).cell = .dynB 0 0 none := by
  simp only [fini, h] at hr ⊢
  by_cases ha : 0 < a
  · rw [if_pos ha] at hr ⊢
    cases v with
    | none => simp at hr
    | some x =>
      simp only [release] at hr ⊢
      split at hr
      · rename_i hi; rw [if_pos hi]
      · simp at hr
  · rw [if_neg ha]

example : (fini (fun _ => .dynBytes) 1 0 (.dynB 2 4 (some (7, [1, 2]))) [7, 9]).fin = .ok := by decide

/-- aosl_fini_typed_obj a second time, after it has returned: safe, and nothing is freed. -/
theorem C152_fini_twice {env : Env} (hs : Sane env) {f t : Nat} {c : Cell} {l : List Nat} (h : (fini env f t c l).fin = .ok) (l' : List Nat) :
    Finishes env t (fini env f t c l).cell l' l' := by
  obtain ⟨f0, h0⟩ := fini_owns hs (fini_clean f t c l h)
  refine ⟨f0, fun f hf => ?_⟩
  have := finIts_one.1 (h0 f hf l' (by simp) (by simp))
  rw [without_nil] at this
  exact this

/-! ### C153: receive and finalise -/

theorem clean_owns {env : Env} {t : Nat} {c : Cell} (h : Clean env t c) : Owns env [(t, c)] [] := by
  cases h with
  | init h => exact init_owns _ _ _ _ h
  | fini h => exact fini_clean _ _ _ _ h

theorem setting_ok {env : Env} (ds : Nat → Bool) (h : OptionalFlat env) : Setting env ds (InHeap env) False :=
  ⟨fun _ _ he => .ptr he, fun _ _ he => .dyn he, fun _ _ _ he => .var he, fun _ _ ht he => .ref ht he,
   fun _ _ _ ht he => .arr ht he, fun t fs ht he fd hf => ⟨.struct ht he hf, h t fs ht he fd hf⟩, False.elim, False.elim⟩

theorem setting_all {env : Env} {ds : Nat → Bool} (h : ∀ t, InHeap env t → Flat env t) (hd : ∀ t, ds t = false) :
    Setting env ds (InHeap env) True :=
  ⟨fun _ _ he => .ptr he, fun _ _ he => .dyn he, fun _ _ _ he => .var he, fun _ _ ht he => .ref ht he,
   fun _ _ _ ht he => .arr ht he, fun t fs ht he fd hf => ⟨.struct ht he hf, .inr (h _ (.struct ht he hf))⟩, fun _ => h, fun _ => hd⟩

theorem finishes_of_post {env : Env} (hs : Sane env) {all : Prop} {t : Nat} {s : Chain} {h : Heap} (hh : ∀ x ∈ h.live, x < h.next)
    {r : R} (hp : Post env all t s h r) (ho : r.res.isOk = true ∨ all) : Finishes env t r.cell r.heap.live h.live := by
  obtain ⟨_, A, hA, hO⟩ := hp
  obtain ⟨L, hL, hLA⟩ := hO ho
  obtain ⟨f0, h0⟩ := fini_owns hs hL
  refine ⟨f0, fun f hf => ?_⟩
  have := finIts_one.1 (h0 f hf r.heap.live (hLA.nodup_iff.2 hA.nodup) (fun x hx => by
    rw [hA.live]; exact List.mem_append_left _ (hLA.mem_iff.1 hx)))
  refine ⟨this.1, ?_⟩
  rw [this.2, hA.live, without, List.filter_append]
  have e1 : A.filter (fun x => decide (x ∉ L)) = [] := by
    rw [List.filter_eq_nil_iff]
    intro x hx
    simpa using hLA.mem_iff.2 hx
  have e2 : h.live.filter (fun x => decide (x ∉ L)) = h.live := by
    rw [List.filter_eq_self]
    intro x hx
    simp only [decide_eq_true_eq]
    intro hxL
    have h1 := hA.fresh x (hLA.mem_iff.1 hxL)
    have h2 := hh x hx
    omega
  rw [e1, e2]
  rfl

/-- aosl_unmarshal into a clean object succeeds: then aosl_fini_typed_obj is safe and frees exactly what
    aosl_unmarshal allocated: the live allocations are those of before. Required: optional fields inside
    allocated objects have no pointers (`OptionalFlat`), and no DYNAMIC_STRING of 65535 bytes is received
    (there are none, or no more than 65536 bytes arrive). The full claim has neither requirement; see
    `C153_violated_optional` and `C153_violated_string`. -/
theorem C153_no_leak_partial {env : Env} (hs : Sane env) (ho : OptionalFlat env) {be : Bool} {ds : Nat → Bool} {f t : Nat} {c : Cell}
    (hc : Clean env t c) {s : Chain} (hd : (∀ t, ds t = false) ∨ s.flatten.length ≤ 65536) {h : Heap} (hh : ∀ x ∈ h.live, x < h.next)
    {v : Val} {n : Nat} (hok : (unm be env ds f t c s h).res = .ok (v, n)) :
    Finishes env t (unm be env ds f t c s h).cell (unm be env ds f t c s h).heap.live h.live :=
  finishes_of_post hs hh (unm_post (setting_ok ds ho) f t c s h (.inr (clean_owns hc)) hd) (.inl (by rw [hok]; rfl))

/-- Any number of receive-and-finalise rounds on one object, as long as the receives succeed: every call is safe
    and at the end the live allocations are those of the beginning. -/
inductive Rounds (be : Bool) (env : Env) (ds : Nat → Bool) (t : Nat) : Cell × Heap → Cell × Heap → Prop where
  | done (x : Cell × Heap) : Rounds be env ds t x x
  | more {f : Nat} {c : Cell} {s : Chain} {h : Heap} {v : Val} {n f' : Nat} {y : Cell × Heap}
      (hl : s.flatten.length ≤ 65536) (hok : (unm be env ds f t c s h).res = .ok (v, n))
      (hret : (fini env f' t (unm be env ds f t c s h).cell (unm be env ds f t c s h).heap.live).fin ≠ .more)
      (hr : Rounds be env ds t ((fini env f' t (unm be env ds f t c s h).cell (unm be env ds f t c s h).heap.live).cell,
        { (unm be env ds f t c s h).heap with
          live := (fini env f' t (unm be env ds f t c s h).cell (unm be env ds f t c s h).heap.live).live }) y) :
      Rounds be env ds t (c, h) y

/-! ### More recursion depth changes nothing -/

theorem finAll_le {g g' : Nat → Cell → List Nat → F} (h : ∀ t c l, (g t c l).fin = .more ∨ g t c l = g' t c l) :
    ∀ ts cs l, (finAll g ts cs l).fin = .more ∨ finAll g ts cs l = finAll g' ts cs l
  | [], cs, l => by simp [finAll]
  | _ :: _, [], l => by simp [finAll]
  | t :: ts, c :: cs, l => by
    simp only [finAll]
    rcases h t c l with h1 | h1
    · left; simp [h1]
    · rw [← h1]
      by_cases hok : (g t c l).fin = .ok
      · simp only [if_pos hok]
        rcases finAll_le h ts cs (g t c l).live with h2 | h2
        · left; exact h2
        · right; rw [h2]
      · simp [if_neg hok]

theorem sizedF_le {env : Env} {f ch : Nat} {c : Cell} {l : List Nat} {bad k k' : F} (h : k.fin = .more ∨ k = k') :
    (sizedF (sizeOk env f ch) c l bad k).fin = .more ∨ sizedF (sizeOk env f ch) c l bad k = sizedF (sizeOk env (f + 1) ch) c l bad k' := by
  rcases sizeOk_mono (env := env) f ch with h1 | h1
  · left; rw [h1]; rfl
  · rw [← h1]
    rcases sizeOk env f ch with _ | _ | _
    · right; rfl
    · right; rfl
    · exact h

theorem fini_le {env : Env} (f : Nat) : ∀ t c l, (fini env f t c l).fin = .more ∨ fini env f t c l = fini env (f + 1) t c l := by
  induction f with
  | zero => intro t c l; left; rfl
  | succ f ih =>
    intro t c l
    rw [fini.eq_def env (f + 1) t c l, fini.eq_def env (f + 1 + 1) t c l]
    dsimp only
    cases he : env t with
    | pointer ch =>
      dsimp only
      cases c with
      | ptr id x =>
        dsimp only
        rcases ih ch x l with h1 | h1
        · left; simp [h1]
        · right; rw [h1]
      | _ => right; rfl
    | reference ch => exact ih ch c l
    | struct fs =>
      dsimp only
      rcases finAll_le ih (fs.map (·.node)) (members fs.length c) l with h1 | h1
      · left; exact h1
      · right; rw [h1]
    | fixedArray n ch =>
      dsimp only
      refine sizedF_le ?_
      rcases finAll_le ih (List.replicate n ch) (members n c) l with h1 | h1
      · left; exact h1
      · right; rw [h1]
    | varArray cap ch =>
      dsimp only
      refine sizedF_le ?_
      cases c with
      | varr count es =>
        dsimp only
        by_cases hc : count ≤ cap
        · simp only [if_pos hc]
          rcases finAll_le ih (List.replicate count ch) (members cap (.varr count es)) l with h1 | h1
          · left; exact h1
          · right; rw [h1]
        · right; simp [if_neg hc]
      | _ => right; rfl
    | dynArray ch =>
      cases c with
      | dynA count al v es =>
        dsimp only
        by_cases ha : 0 < al
        · simp only [if_pos ha]
          rcases v with _ | id
          · right; rfl
          · dsimp only
            by_cases hc : 0 < count
            · simp only [if_pos hc]
              refine sizedF_le ?_
              by_cases hl : count ≤ es.length
              · simp only [if_pos hl]
                rcases finAll_le ih (List.replicate count ch) es l with h1 | h1
                · left; simp [h1]
                · right; rw [h1]
              · right; simp [if_neg hl]
            · right; simp [if_neg hc]
        · right; simp [if_neg ha]
      | _ => right; rfl
    | _ => right; rfl

theorem fini_stable {env : Env} {f t : Nat} {c : Cell} {l : List Nat} (h : (fini env f t c l).fin ≠ .more) :
    ∀ f', f ≤ f' → fini env f' t c l = fini env f t c l := by
  intro f' hf
  induction f' with
  | zero => have : f = 0 := by omega
            subst this; rfl
  | succ g ih =>
    by_cases hg : f ≤ g
    · have h1 := ih hg
      have h2 := fini_le (env := env) g t c l
      rw [h1] at h2
      exact (h2.resolve_left h).symm
    · have : f = g + 1 := by omega
      subst this; rfl

theorem finishes_at {env : Env} {f t : Nat} {c : Cell} {l l' : List Nat} (h : Finishes env t c l l')
    (hm : (fini env f t c l).fin ≠ .more) : (fini env f t c l).fin = .ok ∧ (fini env f t c l).live = l' := by
  obtain ⟨f0, h0⟩ := h
  have := h0 (max f f0) (by omega)
  rw [fini_stable hm _ (by omega)] at this
  exact this

theorem C153_rounds_partial {env : Env} (hs : Sane env) (ho : OptionalFlat env) {be : Bool} {ds : Nat → Bool} {t : Nat}
    {x y : Cell × Heap} (hr : Rounds be env ds t x y) (hc : Clean env t x.1) (hh : ∀ z ∈ x.2.live, z < x.2.next) :
    Clean env t y.1 ∧ y.2.live = x.2.live ∧ Finishes env t y.1 y.2.live x.2.live := by
  induction hr with
  | done x =>
    refine ⟨hc, rfl, ?_⟩
    obtain ⟨f0, h0⟩ := fini_owns hs (clean_owns hc)
    refine ⟨f0, fun f hf => ?_⟩
    have := finIts_one.1 (h0 f hf x.2.live (by simp) (by simp))
    rw [without_nil] at this
    exact this
  | @more f c s h v n f' y hl hok hret _ ih =>
    have h1 := finishes_at (C153_no_leak_partial hs ho hc (.inr hl) hh hok) hret
    obtain ⟨_, A, hA, _⟩ := unm_post (be := be) (setting_ok ds ho) f t c s h (.inr (clean_owns hc)) (.inr hl)
    have h2 := ih (.fini h1.1) (by
      dsimp only
      rw [h1.2]
      intro z hz
      have h3 : z < h.next := hh z hz
      have h4 := hA.next
      omega)
    dsimp only at h2 ⊢
    rw [h1.2] at h2
    exact h2

/-! ### C154: a failed receive -/

/-- A failed aosl_unmarshal (truncated or malformed data, no memory, an unknown type) into a clean object:
    aosl_fini_typed_obj is then safe and frees what was allocated, provided that no pointers occur inside
    allocated memory or inside the elements of a VAR_ARRAY, and that there are no DYNAMIC_STRINGs. The full claim
    is without the two provisos and is false: `C154_violated`, `C154_violated_var`, `C154_leaked`. -/
theorem C154_failed_receive_partial {env : Env} (hs : Sane env) (hf : ∀ t, InHeap env t → Flat env t) {ds : Nat → Bool}
    (hd : ∀ t, ds t = false) {be : Bool} {f t : Nat} {c : Cell} (hc : Clean env t c) {s : Chain} {h : Heap}
    (hh : ∀ x ∈ h.live, x < h.next) :
    Finishes env t (unm be env ds f t c s h).cell (unm be env ds f t c s h).heap.live h.live :=
  finishes_of_post hs hh (unm_post (setting_all hf hd) f t c s h (.inr (clean_owns hc)) (.inl hd)) (.inr trivial)

/-! ### Memory never runs out -/

def Rich (h : Heap) : Prop := ∀ k, h.grants k = true

theorem rich_malloc {h : Heap} (hr : Rich h) : ∃ id h', h.malloc = (some id, h') ∧ Rich h' :=
  ⟨h.next, { h with live := h.next :: h.live, next := h.next + 1 }, by simp [Heap.malloc, hr h.next], hr⟩

def Fine (r : R) : Prop := Rich r.heap ∧ r.res ≠ .enomem
def Fines (q : Rs) : Prop := Rich q.heap ∧ q.res ≠ .enomem

theorem fine_after {α : Type} {x : Out α} {c : Cell} {s : Chain} {h : Heap} {k : α → R} (hh : Rich h) (hk : ∀ a, Fine (k a)) :
    Fine (after x c s h k) := by
  cases x with
  | ok a => exact hk a
  | _ => exact ⟨hh, by simp [after]⟩

theorem fine_sized {x : Option Bool} {c : Cell} {s : Chain} {h : Heap} {bad k : R} (hh : Rich h) (h1 : Fine bad) (h2 : Fine k) :
    Fine (sized x c s h bad k) := by
  rcases x with _ | _ | _
  · exact ⟨hh, by simp [sized]⟩
  · exact h1
  · exact h2

theorem fine_alloc {c : Cell} {s : Chain} {h : Heap} {k : Nat → Heap → R} (hh : Rich h) (hk : ∀ id h', Rich h' → Fine (k id h')) :
    Fine (alloc c s h k) := by
  obtain ⟨id, h', h1, h2⟩ := rich_malloc hh
  simp only [alloc, h1]
  exact hk id h' h2

theorem map_ne {α β : Type} {r : Res α} {g : α → β} (h : r ≠ .enomem) : r.map g ≠ .enomem := by
  cases r <;> simp_all [Res.map]

theorem fine_fields {g : Nat → Cell → Chain → Heap → R} (hg : ∀ t c s h, Rich h → Fine (g t c s h)) :
    ∀ fs prev cs s h, Rich h → Fines (mFieldsU g fs prev cs s h)
  | [], prev, cs, s, h, hh => by simpa [mFieldsU, Fines] using hh
  | _ :: _, prev, [], s, h, hh => by simpa [mFieldsU, Fines] using hh
  | fd :: fs, prev, c :: cs, s, h, hh => by
    simp only [mFieldsU]
    split
    · obtain ⟨h1, h2⟩ := hg fd.node c s h hh
      split
      · rename_i v n hr
        obtain ⟨i1, i2⟩ := fine_fields hg fs (prev ++ [v]) cs (g fd.node c s h).chain _ h1
        exact ⟨i1, map_ne i2⟩
      · exact ⟨h1, map_ne h2⟩
    · obtain ⟨i1, i2⟩ := fine_fields hg fs (prev ++ [.absent]) cs s h hh
      exact ⟨i1, map_ne i2⟩

theorem fine_elems {g : Cell → Chain → Heap → R} (hg : ∀ c s h, Rich h → Fine (g c s h)) :
    ∀ k cs s h, Rich h → Fines (mElemsU g k cs s h)
  | 0, cs, s, h, hh => by simpa [mElemsU, Fines] using hh
  | _ + 1, [], s, h, hh => by simpa [mElemsU, Fines] using hh
  | k + 1, c :: cs, s, h, hh => by
    simp only [mElemsU]
    obtain ⟨h1, h2⟩ := hg c s h hh
    split
    · rename_i v n hr
      obtain ⟨i1, i2⟩ := fine_elems hg k cs (g c s h).chain _ h1
      exact ⟨i1, map_ne i2⟩
    · exact ⟨h1, map_ne h2⟩

theorem unm_fine {be : Bool} {env : Env} {ds : Nat → Bool} (f : Nat) :
    ∀ t c s h, Rich h → Fine (unm be env ds f t c s h) := by
  induction f with
  | zero => intro t c s h hh; exact ⟨hh, by simp [unm]⟩
  | succ f ih =>
    intro t c s h hh
    simp only [unm]
    have hplain : ∀ n v, Fine (plain c s h n v) := fun n v => fine_after hh fun _ => ⟨hh, by simp⟩
    have hr : ∀ (c : Cell) (s : Chain) (h : Heap) (r : Res (Val × Nat)), Rich h → r ≠ .enomem → Fine ⟨c, s, h, r⟩ := fun _ _ _ _ h1 h2 => ⟨h1, h2⟩
    cases he : env t with
    | void => exact hr _ _ _ _ hh (by simp)
    | int k => exact hplain _ _
    | raw k => exact hplain _ _
    | fixedBytes k => exact hplain _ _
    | unknown => exact hr _ _ _ _ hh (by simp)
    | reference ch => exact ih ch c s h hh
    | varBytes cap =>
      refine fine_after hh fun ⟨b, s', n⟩ => ?_
      dsimp only
      split
      · exact hr _ _ _ _ hh (by simp)
      · exact fine_after hh fun _ => hr _ _ _ _ hh (by simp)
    | bytesNil cap =>
      refine fine_after hh fun sz => ?_
      split
      · exact hr _ _ _ _ hh (by simp)
      · exact hplain _ _
    | pointer ch =>
      refine fine_after hh fun ⟨b, s', n⟩ => ?_
      dsimp only
      split
      · exact hr _ _ _ _ hh (by simp)
      · refine fine_sized hh (hr _ _ _ _ hh (by simp)) (fine_alloc hh fun id h' hh' => ?_)
        obtain ⟨i1, i2⟩ := ih ch .junk s' h' hh'
        exact ⟨i1, map_ne i2⟩
    | string =>
      refine fine_after hh fun ⟨b, s', n⟩ => ?_
      dsimp only
      split
      · exact hr _ _ _ _ hh (by simp)
      · exact fine_after hh fun _ => fine_alloc hh fun id h' hh' => fine_after hh' fun _ => hr _ _ _ _ hh' (by simp)
    | struct fs =>
      obtain ⟨i1, i2⟩ := fine_fields ih fs [] (members fs.length c) s h hh
      exact ⟨i1, map_ne i2⟩
    | dynBytes =>
      refine fine_after hh fun ⟨b, s', n⟩ => ?_
      dsimp only
      by_cases hne : (ofHost be b + if ds t = true then 1 else 0) = 0
      · rw [if_pos hne]; exact hr _ _ _ _ hh (by simp)
      · rw [if_neg hne]; exact fine_alloc hh fun id h' hh' => fine_after hh' fun _ => hr _ _ _ _ hh' (by simp)
    | fixedArray k ch =>
      refine fine_sized hh (hr _ _ _ _ hh (by simp)) ?_
      split
      · obtain ⟨i1, i2⟩ := fine_elems (ih ch) k (members k c) s h hh
        exact ⟨i1, map_ne i2⟩
      · exact hr _ _ _ _ hh (by simp)
    | varArray cap ch =>
      refine fine_sized hh (hr _ _ _ _ hh (by simp)) (fine_after hh fun ⟨b, s', n⟩ => ?_)
      dsimp only
      split
      · exact hr _ _ _ _ hh (by simp)
      · obtain ⟨i1, i2⟩ := fine_elems (ih ch) (ofHost be b) (members cap c) s' h hh
        exact ⟨i1, map_ne i2⟩
    | dynArray ch =>
      refine fine_after hh fun ⟨b, s', n⟩ => ?_
      dsimp only
      split
      · exact hr _ _ _ _ hh (by simp)
      · refine fine_sized hh (hr _ _ _ _ hh (by simp)) (fine_alloc hh fun id h' hh' => ?_)
        obtain ⟨i1, i2⟩ := fine_elems (ih ch) (ofHost be b) (List.replicate (ofHost be b) .junk) s' h' hh'
        exact ⟨i1, map_ne i2⟩

/-! ### C155: what is stored -/

/-- After a successful aosl_unmarshal the object's memory holds a value, and it is the value `Marshal.unmarshal`
    (C21-C24) speaks about; the rest of the data and the result are the same too. If the call fails for another
    reason than lack of memory, it fails as described there. If memory does not run out, it succeeds whenever
    `Marshal.unmarshal` does. -/
theorem C155_memory {be : Bool} {env : Env} {ds : Nat → Bool} {f t : Nat} {c : Cell} {s : Chain} {h : Heap} :
    (∀ v n, (unm be env ds f t c s h).res = .ok (v, n) →
      Holds env [(t, (unm be env ds f t c s h).cell)] [v] ∧
      unmarshal be true env f t s = .ok (v, (unm be env ds f t c s h).chain, n)) ∧
    (∀ e, (unm be env ds f t c s h).res = .err e → unmarshal be true env f t s = .err e) ∧
    ((∀ k, h.grants k = true) → ∀ v s' n, unmarshal be true env f t s = .ok (v, s', n) →
      (unm be env ds f t c s h).res = .ok (v, n)) := by
  obtain ⟨h1, h2⟩ := unm_agree (be := be) (env := env) (ds := ds) f t c s h
  refine ⟨fun v n hv => ⟨h1 v n hv, ?_⟩, fun e he => ?_, fun hr v s' n hv => ?_⟩
  · have := h2 (by rw [hv]; simp)
    rw [hv] at this
    simpa [toOut] using this.symm
  · have := h2 (by rw [he]; simp)
    rw [he] at this
    simpa [toOut] using this.symm
  · have h3 := (unm_fine (be := be) (env := env) (ds := ds) f t c s h hr).2
    have h4 := h2 h3
    rw [hv] at h4
    cases hr : (unm be env ds f t c s h).res with
    | ok a =>
      rw [hr] at h4
      simp only [toOut, Option.some.injEq, Out.ok.injEq, Prod.mk.injEq] at h4
      obtain ⟨a1, a2⟩ := a
      simp_all
    | enomem => exact absurd hr h3
    | _ => rw [hr] at h4; simp [toOut] at h4

open Spec in
/-- With C21: the bytes a peer produced for an object, however segmented, are received into memory. -/
theorem C155_received {be : Bool} {env : Env} {ds : Nat → Bool} {t : Nat} {v : Val} {bs : List Byte} (hw : Wire be env (.obj t v) bs)
    {s : Chain} (hs : NoEmpty s) {rest : List Byte} (hb : s.flatten = bs ++ rest) (c : Cell) {h : Heap} (hr : ∀ k, h.grants k = true) :
    ∃ f0, ∀ f, f0 ≤ f → (unm be env ds f t c s h).res = .ok (v, bs.length) ∧ Holds env [(t, (unm be env ds f t c s h).cell)] [v] := by
  obtain ⟨s', ⟨_, f0, h1⟩, _, _⟩ := C21_unmarshal hw hs hb
  refine ⟨f0, fun f hf => ?_⟩
  have h2 := C155_memory (be := be) (env := env) (ds := ds) (f := f) (t := t) (c := c) (s := s) (h := h)
  have h3 := h2.2.2 hr _ _ _ (h1 f hf)
  exact ⟨h3, (h2.1 _ _ h3).1⟩

/-! ### What goes wrong -/

/-- DYNAMIC_ARRAY of strings (type 0) -/
def envStrs : Env := fun t => match t with | 0 => .dynArray 1 | _ => .string

/-- pointer to a structure with two strings -/
def envPtr : Env := fun t => match t with | 0 => .pointer 1 | 1 => .struct [⟨2, none⟩, ⟨2, none⟩] | _ => .string

/-- VAR_ARRAY of strings -/
def envVar : Env := fun t => match t with | 0 => .varArray 4 1 | _ => .string

/-- pointer to a structure with an optional string -/
def envOpt : Env := fun t => match t with
  | 0 => .pointer 1
  | 1 => .struct [⟨2, none⟩, ⟨3, some fun prev => match prev with | [.num 1] => true | _ => false⟩]
  | 2 => .int 1
  | _ => .string

/-- DYNAMIC_STRING -/
def envDyn : Env := fun _ => .dynBytes

/-- one live allocation (7) of somebody else, memory never runs out -/
def heap0 : Heap := ⟨[7], 8, fun _ => true⟩

/-- A truncated message: two strings are announced, none arrives. aosl_unmarshal reports the error, as it should;
    aosl_fini_typed_obj, which is there to clean up, then frees an uninitialised pointer. -/
theorem C154_violated (f : Nat) :
    init envStrs (f + 1) 0 .junk = some (.dynA 0 0 none []) ∧
    (unm false envStrs (fun _ => false) (f + 3) 0 (.dynA 0 0 none []) [[2, 0]] heap0).res = .err .emsgsize ∧
    (fini envStrs (f + 3) 0 (unm false envStrs (fun _ => false) (f + 3) 0 (.dynA 0 0 none []) [[2, 0]] heap0).cell
      (unm false envStrs (fun _ => false) (f + 3) 0 (.dynA 0 0 none []) [[2, 0]] heap0).heap.live).fin = .ub := ⟨rfl, rfl, rfl⟩

/-- The same with a pointer to a structure of which only the first string arrives. -/
theorem C154_violated_ptr (f : Nat) :
    (unm false envPtr (fun _ => false) (f + 3) 0 .null [[1, 1, 97, 0]] heap0).res = .err .emsgsize ∧
    (fini envPtr (f + 3) 0 (unm false envPtr (fun _ => false) (f + 3) 0 .null [[1, 1, 97, 0]] heap0).cell
      (unm false envPtr (fun _ => false) (f + 3) 0 .null [[1, 1, 97, 0]] heap0).heap.live).fin = .ub := ⟨rfl, rfl⟩

/-- The same with an array of fixed capacity, of which aosl_init_typed_obj initialises the count only. -/
theorem C154_violated_var (f : Nat) :
    init envVar (f + 1) 0 .junk = some (.varr 0 [.junk, .junk, .junk, .junk]) ∧
    (unm false envVar (fun _ => false) (f + 3) 0 (.varr 0 [.junk, .junk, .junk, .junk]) [[2, 0, 0]] heap0).res = .err .emsgsize ∧
    (fini envVar (f + 3) 0 (unm false envVar (fun _ => false) (f + 3) 0 (.varr 0 [.junk, .junk, .junk, .junk]) [[2, 0, 0]] heap0).cell
      (unm false envVar (fun _ => false) (f + 3) 0 (.varr 0 [.junk, .junk, .junk, .junk]) [[2, 0, 0]] heap0).heap.live).fin = .ub := ⟨rfl, rfl, rfl⟩

/-- A successful receive in which an optional string inside an allocated structure is not present:
    aosl_fini_typed_obj, which does not ask `is_have`, frees an uninitialised pointer. -/
theorem C153_violated_optional (f : Nat) :
    (unm false envOpt (fun _ => false) (f + 3) 0 .null [[1, 0]] heap0).res = .ok (.ptr (some (.struct [.num 0, .absent])), 2) ∧
    (fini envOpt (f + 3) 0 (unm false envOpt (fun _ => false) (f + 3) 0 .null [[1, 0]] heap0).cell
      (unm false envOpt (fun _ => false) (f + 3) 0 .null [[1, 0]] heap0).heap.live).fin = .ub := ⟨rfl, rfl⟩

/-- A DYNAMIC_STRING whose length field says 65535: the size of the allocation, 65536, is remembered in 16 bits as 0,
    and aosl_fini_typed_obj does not free it. Here the message is truncated as well: two bytes suffice for each leak. -/
theorem C154_leaked (f : Nat) :
    (unm false envDyn (fun _ => true) (f + 1) 0 (.dynB 0 0 none) [[255, 255]] heap0).res = .err .emsgsize ∧
    (fini envDyn (f + 1) 0 (unm false envDyn (fun _ => true) (f + 1) 0 (.dynB 0 0 none) [[255, 255]] heap0).cell
      (unm false envDyn (fun _ => true) (f + 1) 0 (.dynB 0 0 none) [[255, 255]] heap0).heap.live).fin = .ok ∧
    (fini envDyn (f + 1) 0 (unm false envDyn (fun _ => true) (f + 1) 0 (.dynB 0 0 none) [[255, 255]] heap0).cell
      (unm false envDyn (fun _ => true) (f + 1) 0 (.dynB 0 0 none) [[255, 255]] heap0).heap.live).live = [8, 7] := ⟨rfl, rfl, rfl⟩

/-- The same with all the 65535 bytes there: the receive succeeds. -/
theorem C153_violated_string (f : Nat) (bs : List Byte) (hb : bs.length = 65535) :
    (unm false envDyn (fun _ => true) (f + 1) 0 (.dynB 0 0 none) [[255, 255], bs] heap0).res = .ok (.bytes bs, 65537) ∧
    (fini envDyn (f + 1) 0 (unm false envDyn (fun _ => true) (f + 1) 0 (.dynB 0 0 none) [[255, 255], bs] heap0).cell
      (unm false envDyn (fun _ => true) (f + 1) 0 (.dynB 0 0 none) [[255, 255], bs] heap0).heap.live).live = [8, 7] := by
  have h1 : Marshal.get [[255, 255], bs] 2 = .ok ([255, 255], [[], bs], 2) := rfl
  have hv : ofHost false [255, 255] = 65535 := by decide
  have h2 : Marshal.get [[], bs] 65535 = .ok (bs, [[]], 65535) := by
    rw [Marshal.get, getBytes_more (by simp), getBytes_le (by simp [hb])]
    simp only [Out.bind, List.length_nil, Nat.sub_zero, List.nil_append, ← hb, List.take_length, List.drop_length]
  have hm : heap0.malloc = (some 8, ⟨[8, 7], 9, fun _ => true⟩) := rfl
  have h3 : unm false envDyn (fun _ => true) (f + 1) 0 (.dynB 0 0 none) [[255, 255], bs] heap0 =
      ⟨.dynB 65535 0 (some (8, bs)), [[]], ⟨[8, 7], 9, fun _ => true⟩, .ok (.bytes bs, 65537)⟩ := by
    simp only [unm, envDyn, h1, after, hv, if_true, alloc, hm, h2, Nat.reduceAdd, Nat.reduceEqDiff, if_false, Nat.reduceMod]
  rw [h3]
  exact ⟨rfl, rfl⟩

/-- Receiving a second time into an object that was not finalised: what it had is lost. -/
theorem C153_reuse_leaks (f : Nat) :
    let r1 := unm false envStrs (fun _ => false) (f + 3) 0 (.dynA 0 0 none []) [[1, 0, 1, 97, 0]] heap0
    let r2 := unm false envStrs (fun _ => false) (f + 3) 0 r1.cell [[0, 0]] r1.heap
    (r1.res = .ok (.arr [.str (some [97])], 5)) ∧ (r2.res = .ok (.arr [], 2)) ∧
    (fini envStrs (f + 3) 0 r2.cell r2.heap.live).fin = .ok ∧ (fini envStrs (f + 3) 0 r2.cell r2.heap.live).live = [9, 8, 7] := ⟨rfl, rfl, rfl, rfl⟩

/-! ### The hypotheses can be met -/

/-- a message with a list of named items: { id; items }, item = { name, payload, next } -/
def envList : Env := fun t => match t with
  | 0 => .struct [⟨1, none⟩, ⟨2, none⟩]
  | 1 => .int 1
  | 2 => .pointer 3
  | 3 => .struct [⟨4, none⟩, ⟨5, none⟩, ⟨2, none⟩]
  | 4 => .string
  | _ => .dynBytes

theorem sane_list : Sane envList := fun t => ⟨1, true, by
  unfold sizeOk envList
  split <;> first | rfl | (rename_i h; revert h; split <;> simp)⟩

theorem optional_list : OptionalFlat envList := by
  intro t fs _ he fd hf
  unfold envList at he
  left
  split at he <;> simp_all
  · subst he; simp at hf; rcases hf with rfl | rfl <;> rfl
  · subst he; simp at hf; rcases hf with rfl | rfl | rfl <;> rfl

/-- two items, "a" with no payload and one without name with payload 9 -/
def msg : Chain := [[5, 1, 1, 97], [0, 0, 0, 1, 0, 1, 0, 9], [0]]

example : init envList 2 0 .junk = some (.struct [.base (.num 0), .null]) := rfl
example : (unm false envList (fun _ => false) 9 0 (.struct [.base (.num 0), .null]) msg heap0).res =
    .ok (.struct [.num 5, .ptr (some (.struct [.str (some [97]), .bytes [], .ptr (some (.struct [.str none, .bytes [9], .ptr none]))]))], 13) := rfl
example : (unm false envList (fun _ => false) 9 0 (.struct [.base (.num 0), .null]) msg heap0).heap.live = [11, 10, 9, 8, 7] := rfl
example : Finishes envList 0 (unm false envList (fun _ => false) 9 0 (.struct [.base (.num 0), .null]) msg heap0).cell [11, 10, 9, 8, 7] [7] :=
  C153_no_leak_partial sane_list optional_list (.init (f := 2) (c := .junk) rfl) (.inl fun _ => rfl) (by simp [heap0]) rfl

/-- a record with strings and blobs at the top, an array of numbers and a pointer to a number -/
def envRec : Env := fun t => match t with
  | 0 => .struct [⟨1, none⟩, ⟨2, none⟩, ⟨3, some fun _ => false⟩, ⟨4, none⟩]
  | 1 => .string
  | 2 => .dynArray 5
  | 3 => .dynBytes
  | 4 => .pointer 5
  | _ => .int 2

theorem sane_rec : Sane envRec := fun t => ⟨1, true, by
  unfold sizeOk envRec
  split <;> first | rfl | (rename_i h; revert h; split <;> simp)⟩

theorem flat_rec : ∀ t, InHeap envRec t → Flat envRec t := by
  have hint : Flat envRec 5 := .leaf (by simp [envRec])
  have key : ∀ t, InHeap envRec t → t = 5 := by
    intro t ht
    induction ht with
    | ptr h => unfold envRec at h; split at h <;> simp_all
    | dyn h => unfold envRec at h; split at h <;> simp_all
    | var h => unfold envRec at h; split at h <;> simp_all
    | ref _ h ih => rw [ih] at h; simp [envRec] at h
    | arr _ h ih => rw [ih] at h; simp [envRec] at h
    | struct _ h _ ih => rw [ih] at h; simp [envRec] at h
  intro t ht
  rw [key t ht]; exact hint

-- the string and the array are there, then the data ends within the array
example : (unm false envRec (fun _ => false) 9 0 (.struct [.null, .dynA 0 0 none [], .dynB 0 0 none, .null]) [[1, 97, 0, 2, 0, 1, 0, 7]] heap0).res =
    .err .emsgsize := rfl
example : (unm false envRec (fun _ => false) 9 0 (.struct [.null, .dynA 0 0 none [], .dynB 0 0 none, .null]) [[1, 97, 0, 2, 0, 1, 0, 7]] heap0).heap.live =
    [9, 8, 7] := rfl
example : Finishes envRec 0 (unm false envRec (fun _ => false) 9 0 (.struct [.null, .dynA 0 0 none [], .dynB 0 0 none, .null])
    [[1, 97, 0, 2, 0, 1, 0, 7]] heap0).cell [9, 8, 7] [7] :=
  C154_failed_receive_partial sane_rec flat_rec (fun _ => rfl) (.init (f := 3) (c := .junk) rfl) (by simp [heap0])

-- two rounds on one object
example : Rounds false envStrs (fun _ => false) 0 (.dynA 0 0 none [], heap0) (.dynA 0 0 none [], ⟨[7], 10, fun _ => true⟩) :=
  .more (f := 4) (f' := 4) (s := [[1, 0, 1, 97, 0]]) (by decide) rfl (by decide) (.done _)

end Verif.MarshalMem
