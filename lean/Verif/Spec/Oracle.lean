import Verif.Conc.Prog
import Verif.Props.Memory
import Verif.Base.Post

/- Proof machinery for threads: what a program does with any correct allocator it also does, as far as it can see, with one that other
threads use in between. -/
namespace KTL

/-- The fields of `oracle`. Proof helper, not code. -/
structure Oracle where
  script : List (Nat × List UInt8)
  live : List (Nat × Nat)

/-- One more block in memory. Proof helper, not code. -/
def Oracle.put (w : World) (p : Nat) (bs : List UInt8) : World :=
  { w with heap := ⟨fun x => if p ≤ x ∧ x < p + bs.length then bs[x - p]? else w.heap.b x, w.heap.t⟩ }

/-- One block less. Proof helper, not code. -/
def Oracle.cut (w : World) (p n : Nat) : World :=
  { w with heap := ⟨fun x => if p ≤ x ∧ x < p + n then none else w.heap.b x, w.heap.t⟩ }

open Classical in
/-- The answer that the script foresees, if it is possible. Proof helper, not code. -/
noncomputable def Oracle.alloc (f : Nat → Prop) (s : Oracle) (n : Nat) : M (Nat × Oracle) := fun w =>
  if f n ∧ n < W64 then
    match s.script with
    | [] => .oom { w with failed := true }
    | a :: rest =>
      if a.1 = 0 then .ok (0, ⟨rest, s.live⟩) w
      else if Good a.1 n ∧ a.2.length = n ∧ ∀ x, a.1 ≤ x → x < a.1 + n → w.heap.b x = none then
        .ok (a.1, ⟨rest, (a.1, n) :: s.live⟩) (Oracle.put w a.1 a.2)
      else .oom { w with failed := true }
  else .ub

open Classical in
/-- Only what is out can be given back. Proof helper, not code. -/
noncomputable def Oracle.dealloc (s : Oracle) (p n : Nat) : M Oracle := fun w =>
  if (p, n) ∈ s.live then .ok ⟨s.script, s.live.erase (p, n)⟩ (Oracle.cut w p n) else .ub

/-- An allocator that gives the answers a script foresees (address and contents of the block), if they are possible. Requests outside of
`f`, and blocks given back that are not out with that size, are undefined behaviour. Proof helper, not code. -/
noncomputable def oracle (f : Nat → Prop) : Allocator where
  St := Oracle
  objSize := 0
  init _ := pure ⟨[], []⟩
  alloc := Oracle.alloc f
  dealloc := Oracle.dealloc
  owns := none
  maxSize := none
  construct := none
  destroy := none
  fini _ := pure ()

/-- putting a block into memory -/
theorem Oracle.put_heap {p : Nat} {bs : List UInt8} {w : World} (hfree : ∀ x, p ≤ x → x < p + bs.length → w.heap.b x = none) :
    ∃ h1, bytesV p bs h1 ∧ Heap.disj h1 w.heap ∧ (Oracle.put w p bs).heap = h1.add w.heap := by
  refine ⟨⟨fun x => if p ≤ x then bs[x - p]? else none, fun _ => none⟩, ⟨fun _ => rfl, fun _ => rfl⟩, ⟨fun x => ?_, fun x => .inl rfl⟩, ?_⟩
  · show (if p ≤ x then bs[x - p]? else none) = none ∨ _
    by_cases h1 : p ≤ x
    · by_cases h2 : x < p + bs.length
      · exact .inr (hfree x h1 h2)
      · left; rw [if_pos h1, List.getElem?_eq_none_iff]; omega
    · left; rw [if_neg h1]
  · apply Heap.ext'
    · intro x
      show (if p ≤ x ∧ x < p + bs.length then bs[x - p]? else w.heap.b x) = (if p ≤ x then bs[x - p]? else none).or (w.heap.b x)
      by_cases h1 : p ≤ x
      · by_cases h2 : x < p + bs.length
        · rw [if_pos ⟨h1, h2⟩, if_pos h1, List.getElem?_eq_getElem (by omega)]; rfl
        · rw [if_neg (fun h => h2 h.2), if_pos h1, List.getElem?_eq_none (by omega)]; rfl
      · rw [if_neg (fun h => h1 h.1), if_neg h1]; rfl
    · intro x; rfl

/-- taking a block out of memory -/
theorem Oracle.cut_heap {p : Nat} {bs : List UInt8} {h1 h : Heap} {w : World} (hb : bytesV p bs h1) (hd : Heap.disj h1 h)
    (e : w.heap = h1.add h) : (Oracle.cut w p bs.length).heap = h := by
  show (⟨fun x => if p ≤ x ∧ x < p + bs.length then none else w.heap.b x, w.heap.t⟩ : Heap) = h
  rw [e]
  apply Heap.ext'
  · intro x
    show (if p ≤ x ∧ x < p + bs.length then none else (h1.b x).or (h.b x)) = h.b x
    split
    · rename_i hx
      rcases hd.1 x with e | e
      · have := bytesV_isSome hb hx; rw [e] at this; cases this
      · exact e.symm
    · rename_i hx
      have : h1.b x = none := isSome_eq_none.1 (mt ((bytesV_length hb).2 x).1 hx)
      rw [this]; rfl
  · intro x
    show (h1.t x).or (h.t x) = h.t x
    rw [hb.1 x]; rfl

theorem Oracle.alloc_triple (f : Nat → Prop) (s : Oracle) (n : Nat) (hf : f n) (hn : n < W64) :
    Triple emp (Oracle.alloc f s n) fun r h => (r.1 = 0 ∧ r.2.live = s.live ∧ h = Heap.empty) ∨
      (Good r.1 n ∧ r.2.live = (r.1, n) :: s.live ∧ ∃ bs, bs.length = n ∧ bytesV r.1 bs h) := by
  intro w h hfr hd he hh
  simp only [Oracle.alloc]
  rw [if_pos ⟨hf, hn⟩]
  cases s.script with
  | nil => rfl
  | cons a rest =>
    simp only
    by_cases ha : a.1 = 0
    · rw [if_pos ha]
      exact ⟨⟨h, hd, he, .inl ⟨rfl, rfl, hh⟩⟩, .rfl'⟩
    · rw [if_neg ha]
      by_cases hc : Good a.1 n ∧ a.2.length = n ∧ ∀ x, a.1 ≤ x → x < a.1 + n → w.heap.b x = none
      · rw [if_pos hc]
        obtain ⟨hg, rfl, hfree⟩ := hc
        obtain ⟨h1, hb, hd1, e1⟩ := Oracle.put_heap hfree
        cases hh
        rw [Heap.empty_add] at he
        rw [he] at hd1 e1
        exact ⟨⟨h1, hd1, e1, .inr ⟨hg, rfl, a.2, rfl, hb⟩⟩, .rfl'⟩
      · rw [if_neg hc]

theorem Oracle.dealloc_triple (s : Oracle) (p : Nat) (bs : List UInt8) (hm : (p, bs.length) ∈ s.live) :
    Triple (bytesV p bs) (Oracle.dealloc s p bs.length) fun r h => r.live = s.live.erase (p, bs.length) ∧ h = Heap.empty := by
  intro w h hf hd he hb
  simp only [Oracle.dealloc]
  rw [if_pos hm]
  exact ⟨⟨Heap.empty, Heap.empty_disj _, (Oracle.cut_heap hb hd he).trans (Heap.empty_add _).symm, rfl, rfl⟩, .rfl'⟩

/-- the contract -/
noncomputable def oracle_sound (f : Nat → Prop) : Sound (oracle f) f where
  Inv _ s L := lift (s.live.Perm L ∧ ∀ x ∈ L, Good x.1 x.2 ∧ f x.2)
  objAlign := rfl
  perm := by
    rintro b s L L' h hp ⟨⟨h1, h2⟩, h3⟩
    exact ⟨⟨h1.trans hp, fun x hx => h2 x (hp.mem_iff.2 hx)⟩, h3⟩
  init_spec := by
    intro b _ _ _
    refine Triple.pure _ fun h hh => ?_
    have hh : bytes b 0 h := hh
    rw [bytes_zero] at hh
    exact ⟨⟨.nil, fun x hx => by cases hx⟩, hh⟩
  alloc_spec := by
    intro b s L n hf hn
    refine Triple.and fun ⟨hp, hl⟩ => ?_
    refine (Oracle.alloc_triple f s n hf hn).post fun r h hh => ?_
    rcases hh with ⟨h1, h2, h3⟩ | ⟨hg, h2, bs, rfl, hb⟩
    · exact .inl ⟨h1, ⟨by rw [h2]; exact hp, hl⟩, h3⟩
    · refine .inr ⟨hg, Heap.empty, h, Heap.empty_disj h, (Heap.empty_add h).symm, ⟨⟨by rw [h2]; exact hp.cons _, fun x hx => ?_⟩, rfl⟩, bytesV_length hb⟩
      rcases List.mem_cons.1 hx with rfl | hx
      · exact ⟨hg, hf⟩
      · exact hl x hx
  dealloc_local := by
    intro b s p bs R k _
    rw [lift_star]
    refine apart_and fun ⟨hp, hl⟩ => ?_
    have hm : (p, bs.length) ∈ s.live := hp.mem_iff.2 List.mem_cons_self
    refine (Oracle.dealloc_triple s p bs hm).conseq (fun h hh => hh.2) fun r h hh => ?_
    obtain ⟨e, rfl⟩ := hh
    refine ⟨⟨?_, fun x hx => hl x (List.mem_cons_of_mem _ hx)⟩, rfl⟩
    rw [e]
    have := hp.erase (p, bs.length)
    rwa [List.erase_cons_head] at this
  live_good := by
    rintro b s L h p n ⟨⟨_, hl⟩, _⟩ hm
    exact hl _ hm
  live_max := by intro f hf; cases hf
  owns_sound := by intro f hf; cases hf
  owns_complete := by intro f hf; cases hf
  construct_spec := by intro f hf; cases hf
  destroy_spec := by intro f hf; cases hf
  fini_spec := by
    intro b s
    refine Triple.pure _ fun h hh => ?_
    show bytes b 0 h
    rw [bytes_zero]
    exact hh.2

/-! ### Safety of a thread, access by access -/

/-- Whatever blocks the thread is given, it accesses only its own blocks, gives back only its own blocks with the right sizes, has given back
all of them when it ends, and its result satisfies `Q`. Proof helper, not code. -/
def Safe {α : Type} (f : Nat → Prop) (Q : α → Prop) : Prog α → List (Nat × List UInt8) → Prop
  | .ret a, R => R = [] ∧ Q a
  | .stop, _ => True
  | .ub, _ => False
  | .load p k, R => ∃ q bs v, (q, bs) ∈ R ∧ q ≤ p ∧ bs[p - q]? = some v ∧ Safe f Q (k v) R
  | .store p v k, R => ∃ q bs R', R.Perm ((q, bs) :: R') ∧ q ≤ p ∧ p - q < bs.length ∧ Safe f Q k ((q, bs.set (p - q) v) :: R')
  | .alloc n k, R => f n ∧ n < W64 ∧ Safe f Q (k 0) R ∧
      ∀ p bs, Good p n → bs.length = n → (∃ h, blocksV ((p, bs) :: R) h) → Safe f Q (k p) ((p, bs) :: R)
  | .dealloc p n k, R => ∃ bs R', R.Perm ((p, bs) :: R') ∧ bs.length = n ∧ Safe f Q k R'

theorem bytesV_unique {p : Nat} {bs : List UInt8} {h h' : Heap} (h1 : bytesV p bs h) (h2 : bytesV p bs h') : h = h' :=
  Heap.ext' (fun x => by rw [h1.2, h2.2]) (fun x => by rw [h1.1, h2.1])

theorem blocksV_unique {R : List (Nat × List UInt8)} {h h' : Heap} (h1 : blocksV R h) (h2 : blocksV R h') : h = h' := by
  induction R generalizing h h' with
  | nil => exact Eq.trans h1 (Eq.symm h2)
  | cons x R ih =>
    obtain ⟨a, b, _, rfl, ha, hb⟩ := h1
    obtain ⟨a', b', _, rfl, ha', hb'⟩ := h2
    rw [bytesV_unique ha ha', ih hb hb']

theorem blocksV_find {R : List (Nat × List UInt8)} {h : Heap} {x : Nat} {v : UInt8} (hh : blocksV R h) (hx : h.b x = some v) :
    ∃ q bs, (q, bs) ∈ R ∧ q ≤ x ∧ bs[x - q]? = some v := by
  induction R generalizing h with
  | nil => cases hh; cases hx
  | cons y R ih =>
    obtain ⟨a, b, hd, rfl, ha, hb⟩ := hh
    cases e : a.b x with
    | none =>
      rw [Heap.add_b, e] at hx
      obtain ⟨q, bs, h1, h2⟩ := ih hb hx
      exact ⟨q, bs, List.mem_cons_of_mem _ h1, h2⟩
    | some v' =>
      rw [Heap.add_b, e] at hx
      cases hx
      refine ⟨y.1, y.2, List.mem_cons_self, ?_⟩
      have := ha.2 x
      rw [e] at this
      split at this
      · exact ⟨by assumption, this.symm⟩
      · cases this

/-- Run by itself with an oracle, the program has no undefined behaviour and gives everything back. Proof helper, not code. -/
def Alone {α : Type} (f : Nat → Prop) (Q : α → Prop) (T : Prog α) (R : List (Nat × List UInt8)) : Prop :=
  ∃ live, live.Perm (R.map blk) ∧ ∀ script w, blocksV R w.heap →
    match T.seq (oracle f) (⟨script, live⟩ : Oracle) w with
    | .ok r _ => Oracle.live r.1 = [] ∧ Q r.2
    | .oom _ => True
    | .ub => False

theorem exists_perm_cons {α} {R : List α} {x : α} (h : x ∈ R) : ∃ R', R.Perm (x :: R') := by
  obtain ⟨a, b, rfl⟩ := List.append_of_mem h
  exact ⟨a ++ b, List.perm_middle⟩

theorem blocks_store {R R' : List (Nat × List UInt8)} {q off : Nat} {bs : List UInt8} (v : UInt8) (hR : R.Perm ((q, bs) :: R'))
    (h : off < bs.length) : Triple (blocksV R) (M.store (q + off) v) (fun _ => blocksV ((q, bs.set off v) :: R')) := by
  rw [blocksV_perm hR]
  exact (triple_storeV q bs off v h).frame (blocksV R')

theorem store_world {p : Nat} {v : UInt8} {w w' : World} (h : M.store p v w = .ok () w') : w' = { w with heap := w'.heap } := by
  unfold M.store at h
  split at h
  · cases h; rfl
  · cases h

theorem safe_of_alone {α : Type} (f : Nat → Prop) (Q : α → Prop) (T : Prog α) (R : List (Nat × List UInt8)) (hc : ∃ h, blocksV R h)
    (h : Alone f Q T R) : Safe f Q T R := by
  induction T generalizing R with
  | ret a =>
    obtain ⟨live, hp, hr⟩ := h
    obtain ⟨h0, hh⟩ := hc
    have := hr [] { heap := h0 } hh
    simp only [Prog.seq, M.pure_apply] at this
    refine ⟨?_, this.2⟩
    rw [this.1] at hp
    have := hp.symm.eq_nil
    simpa using this
  | stop => trivial
  | ub =>
    obtain ⟨live, hp, hr⟩ := h
    obtain ⟨h0, hh⟩ := hc
    exact hr [] { heap := h0 } hh
  | load p k ih =>
    obtain ⟨live, hp, hr⟩ := h
    obtain ⟨h0, hh⟩ := hc
    have hb : ∃ v, h0.b p = some v := by
      have := hr [] { heap := h0 } hh
      simp only [Prog.seq, M.bind_apply, M.load] at this
      cases e : h0.b p with
      | some v => exact ⟨v, rfl⟩
      | none => rw [e] at this; exact this.elim
    obtain ⟨v, hv⟩ := hb
    obtain ⟨q, bs, h1, h2, h3⟩ := blocksV_find hh hv
    refine ⟨q, bs, v, h1, h2, h3, ih v R ⟨h0, hh⟩ ⟨live, hp, fun script w hw => ?_⟩⟩
    have := hr script w hw
    have e : w.heap = h0 := blocksV_unique hw hh
    simp only [Prog.seq, M.bind_apply, M.load, e, hv] at this
    exact this
  | store p v k ih =>
    obtain ⟨live, hp, hr⟩ := h
    obtain ⟨h0, hh⟩ := hc
    have hb : ∃ v, h0.b p = some v := by
      have := hr [] { heap := h0 } hh
      simp only [Prog.seq, M.bind_apply, M.store] at this
      cases e : h0.b p with
      | some v => exact ⟨v, rfl⟩
      | none => rw [e] at this; exact this.elim
    obtain ⟨v0, hv⟩ := hb
    obtain ⟨q, bs, h1, h2, h3⟩ := blocksV_find hh hv
    obtain ⟨R', hR⟩ := exists_perm_cons h1
    have hlt : p - q < bs.length := (List.getElem?_eq_some_iff.1 h3).1
    have hset : ∀ w : World, w.heap = h0 → ∃ w', M.store p v w = .ok () w' ∧ blocksV ((q, bs.set (p - q) v) :: R') w'.heap := by
      intro w hw
      have := blocks_store v hR hlt w h0 Heap.empty (Heap.disj_empty _) (hw.trans (Heap.add_empty _).symm) hh
      rw [Nat.add_sub_cancel' h2] at this
      cases e : M.store p v w with
      | ok a w' =>
        rw [e] at this
        obtain ⟨⟨h', _, h2, h3⟩, _⟩ := this
        rw [Heap.add_empty] at h2
        exact ⟨w', rfl, h2 ▸ h3⟩
      | oom w' => unfold M.store at e; split at e <;> cases e
      | ub => rw [e] at this; exact this.elim
    refine ⟨q, bs, R', hR, h2, hlt, ih _ ?_ ⟨live, ?_, fun script w hw => ?_⟩⟩
    · obtain ⟨w', _, h⟩ := hset { heap := h0 } rfl
      exact ⟨_, h⟩
    · refine hp.trans ((hR.map blk).trans (.of_eq ?_))
      simp [blk]
    · obtain ⟨w', he, hb⟩ := hset { w with heap := h0 } rfl
      have hw' : w' = w := by
        rw [store_world he, blocksV_unique hb hw]
      have := hr script { w with heap := h0 } hh
      simp only [Prog.seq] at this
      rw [M.bind_apply, he, hw'] at this
      exact this
  | alloc n k ih =>
    obtain ⟨live, hp, hr⟩ := h
    obtain ⟨h0, hh⟩ := hc
    have hf : f n ∧ n < W64 := by
      refine Classical.byContradiction fun hn => ?_
      have := hr [] { heap := h0 } hh
      simp only [Prog.seq, M.bind_apply, oracle, Oracle.alloc] at this
      rw [if_neg hn] at this
      exact this
    refine ⟨hf.1, hf.2, ih 0 R ⟨h0, hh⟩ ⟨live, hp, fun script w hw => ?_⟩, fun p bs hg hl hcb => ih p _ hcb ⟨(p, n) :: live, ?_, fun script w hw => ?_⟩⟩
    · have := hr ((0, []) :: script) w hw
      simp only [Prog.seq, M.bind_apply, oracle, Oracle.alloc] at this
      rw [if_pos hf] at this
      exact this
    · have : blk (p, bs) = (p, n) := by rw [← hl]; rfl
      rw [List.map_cons, this]
      exact hp.cons _
    · obtain ⟨h1, h2, hd, e, hb, hR⟩ := hw
      have := hr ((p, bs) :: script) { w with heap := h2 } hR
      have hfree : ∀ x, p ≤ x → x < p + bs.length → h2.b x = none := by
        intro x hx hx'
        rcases hd.1 x with e | e
        · have := bytesV_isSome hb ⟨hx, hx'⟩; rw [e] at this; cases this
        · exact e
      have ha : Oracle.alloc f ⟨(p, bs) :: script, live⟩ n { w with heap := h2 } = .ok (p, ⟨script, (p, n) :: live⟩) w := by
        simp only [Oracle.alloc]
        rw [if_pos hf, if_neg hg.1, if_pos ⟨hg, hl, hl ▸ hfree⟩]
        obtain ⟨h1', hb', _, e'⟩ := Oracle.put_heap (w := { w with heap := h2 }) hfree
        have : Oracle.put { w with heap := h2 } p bs = w := by
          show ({ w with heap := (Oracle.put { w with heap := h2 } p bs).heap } : World) = w
          rw [e', bytesV_unique hb' hb, ← e]
        rw [this]
      have e2 : (Prog.alloc n k).seq (oracle f) (⟨(p, bs) :: script, live⟩ : Oracle) { w with heap := h2 } =
          (k p).seq (oracle f) (⟨script, (p, n) :: live⟩ : Oracle) w := bind_of_ok ha
      rw [e2] at this
      exact this
  | dealloc p n k ih =>
    obtain ⟨live, hp, hr⟩ := h
    obtain ⟨h0, hh⟩ := hc
    have hm : (p, n) ∈ live := by
      refine Classical.byContradiction fun hn => ?_
      have := hr [] { heap := h0 } hh
      simp only [Prog.seq, M.bind_apply, oracle, Oracle.dealloc] at this
      rw [if_neg hn] at this
      exact this
    obtain ⟨⟨q, bs⟩, hm1, hm2⟩ := List.mem_map.1 (hp.mem_iff.1 hm)
    obtain ⟨R', hR⟩ := exists_perm_cons hm1
    obtain ⟨rfl, rfl⟩ : q = p ∧ bs.length = n := by simpa [blk] using hm2
    rw [blocksV_perm hR] at hh
    obtain ⟨h1, h2, hd, e, hb, hR'⟩ := hh
    refine ⟨bs, R', hR, rfl, ih _ ⟨h2, hR'⟩ ⟨live.erase (q, bs.length), ?_, fun script w hw => ?_⟩⟩
    · have := (hp.trans (hR.map blk)).erase (q, bs.length)
      rwa [List.map_cons, show blk (q, bs) = (q, bs.length) from rfl, List.erase_cons_head] at this
    · have := hr script { w with heap := h0 } (by rw [blocksV_perm hR]; exact ⟨h1, h2, hd, e, hb, hR'⟩)
      have ha : Oracle.dealloc ⟨script, live⟩ q bs.length { w with heap := h0 } = .ok ⟨script, live.erase (q, bs.length)⟩ w := by
        simp only [Oracle.dealloc]
        rw [if_pos hm]
        have : Oracle.cut { w with heap := h0 } q bs.length = w := by
          show ({ w with heap := (Oracle.cut { w with heap := h0 } q bs.length).heap } : World) = w
          rw [Oracle.cut_heap hb hd e, blocksV_unique hR' hw]
        rw [this]
      have e2 : (Prog.dealloc q bs.length k).seq (oracle f) (⟨script, live⟩ : Oracle) { w with heap := h0 } =
          k.seq (oracle f) (⟨script, live.erase (q, bs.length)⟩ : Oracle) w := bind_of_ok ha
      rw [e2] at this
      exact this

end KTL
