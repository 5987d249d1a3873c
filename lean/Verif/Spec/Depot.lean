import Verif.Spec.Oracle
import Verif.Conc.Local

/- Proof machinery for threads with allocators of their own: an allocator without fields that answers as a script foresees, and keeps its
books in the `malloc` tokens of the machine. -/
namespace KTL

open Classical in
/-- The answer that the script foresees. Proof helper, not code. -/
noncomputable def depotAl (f : Nat → Prop) (S : List (Nat × List UInt8)) (n : Nat) : M Nat := fun w =>
  if f n ∧ n < W64 then
    match S[w.tick]? with
    | none => .oom { w with failed := true }
    | some a =>
      if a.1 = 0 then .ok 0 { w with tick := w.tick + 1 }
      else if Good a.1 n ∧ a.2.length = n ∧ (∀ x, a.1 ≤ x → x < a.1 + n → w.heap.b x = none) ∧ w.heap.t a.1 = none then
        .ok a.1 { w with
          tick := w.tick + 1
          heap := ⟨fun x => if a.1 ≤ x ∧ x < a.1 + a.2.length then a.2[x - a.1]? else w.heap.b x, fun x => if x = a.1 then some n else w.heap.t x⟩ }
      else .oom { w with failed := true }
  else .ub

/-- Only what is out can be given back. Proof helper, not code. -/
def depotDe (p n : Nat) : M Unit := fun w =>
  if w.heap.t p = some n then
    .ok () { w with heap := ⟨fun x => if p ≤ x ∧ x < p + n then none else w.heap.b x, fun x => if x = p then none else w.heap.t x⟩ }
  else .ub

/-- Proof helper, not code. -/
noncomputable def depot (f : Nat → Prop) (S : List (Nat × List UInt8)) : Raw := ⟨depotAl f S, depotDe⟩

theorem depotAl_triple (f : Nat → Prop) (S : List (Nat × List UInt8)) (n : Nat) (hf : f n) (hn : n < W64) :
    Triple emp (depotAl f S n) fun r h => (r = 0 ∧ emp h) ∨ (Good r n ∧ (tok r n ∗ bytes r n) h) := by
  intro w h hfr hd he hh
  have hh : h = Heap.empty := hh
  subst hh
  rw [Heap.empty_add] at he
  simp only [depotAl]
  rw [if_pos ⟨hf, hn⟩]
  cases S[w.tick]? with
  | none => rfl
  | some a =>
    simp only
    by_cases ha : a.1 = 0
    · rw [if_pos ha]
      exact ⟨⟨Heap.empty, hd, by rw [Heap.empty_add]; exact he, .inl ⟨rfl, rfl⟩⟩, .rfl'⟩
    · rw [if_neg ha]
      by_cases hc : Good a.1 n ∧ a.2.length = n ∧ (∀ x, a.1 ≤ x → x < a.1 + n → w.heap.b x = none) ∧ w.heap.t a.1 = none
      · rw [if_pos hc]
        obtain ⟨hg, rfl, hfree, hto⟩ := hc
        have hT : tok a.1 a.2.length ⟨fun _ => none, fun x => if x = a.1 then some a.2.length else none⟩ := ⟨fun _ => rfl, fun x => rfl⟩
        have hV : bytesV a.1 a.2 ⟨fun x => if a.1 ≤ x then a.2[x - a.1]? else none, fun _ => none⟩ := ⟨fun _ => rfl, fun _ => rfl⟩
        refine ⟨⟨_, ⟨fun x => ?_, fun x => ?_⟩, ?_, .inr ⟨hg, _, _, ⟨fun x => .inl rfl, fun x => .inr rfl⟩, rfl, hT, bytesV_length hV⟩⟩, .rfl'⟩
        · show (none : Option UInt8).or (if a.1 ≤ x then a.2[x - a.1]? else none) = none ∨ _
          by_cases h1 : a.1 ≤ x
          · by_cases h2 : x < a.1 + a.2.length
            · right; rw [← he]; exact hfree x h1 h2
            · left; rw [if_pos h1, List.getElem?_eq_none (by omega)]; rfl
          · left; rw [if_neg h1]; rfl
        · show (if x = a.1 then some a.2.length else none).or none = none ∨ _
          by_cases h1 : x = a.1
          · right; rw [h1, ← he]; exact hto
          · left; rw [if_neg h1]; rfl
        · apply Heap.ext'
          · intro x
            show (if a.1 ≤ x ∧ x < a.1 + a.2.length then a.2[x - a.1]? else w.heap.b x) =
              ((none : Option UInt8).or (if a.1 ≤ x then a.2[x - a.1]? else none)).or (hfr.b x)
            rw [← he]
            by_cases h1 : a.1 ≤ x
            · by_cases h2 : x < a.1 + a.2.length
              · rw [if_pos ⟨h1, h2⟩, if_pos h1, List.getElem?_eq_getElem (by omega)]; rfl
              · rw [if_neg (fun h => h2 h.2), if_pos h1, List.getElem?_eq_none (by omega)]; rfl
            · rw [if_neg (fun h => h1 h.1), if_neg h1]; rfl
          · intro x
            show (if x = a.1 then some a.2.length else w.heap.t x) = ((if x = a.1 then some a.2.length else none).or none).or (hfr.t x)
            rw [← he]
            by_cases h1 : x = a.1
            · rw [if_pos h1, if_pos h1]; rfl
            · rw [if_neg h1, if_neg h1]; rfl
      · rw [if_neg hc]

theorem depotDe_triple (p n : Nat) : Triple (tok p n ∗ bytes p n) (depotDe p n) fun _ => emp := by
  intro w h hf hd he hh
  obtain ⟨h1, h2, hd12, rfl, ⟨tb, tt⟩, bt, bb⟩ := hh
  replace bb : ∀ x, (h2.b x).isSome = true ↔ (p ≤ x ∧ x < p + n) := bb
  have hta : w.heap.t p = some n := by rw [he]; simp [tt]
  simp only [depotDe]
  rw [if_pos hta]
  have hd' := Heap.disj_add_left.1 hd
  refine ⟨⟨Heap.empty, Heap.empty_disj _, ?_, rfl⟩, .rfl'⟩
  apply Heap.ext'
  · intro x
    by_cases hx : p ≤ x ∧ x < p + n
    · have h := (bb x).2 hx
      rcases hd'.2.1 x with e | e
      · simp [e] at h
      · simp [hx, e]
    · have h : h2.b x = none := isSome_eq_none.1 (mt (bb x).1 hx)
      simp [hx, he, tb, h]
  · intro x
    by_cases hx : x = p
    · subst hx
      rcases hd'.1.2 x with e | e
      · simp [tt] at e
      · simp [e]
    · simp [hx, he, tt, bt]

/-- The tokens of blocks. Proof helper, not code. -/
def toks : List (Nat × Nat) → HProp
  | [] => emp
  | c :: L => tok c.1 c.2 ∗ toks L

theorem toks_perm {L L' : List (Nat × Nat)} (h : L.Perm L') : toks L = toks L' := by
  induction h with
  | nil => rfl
  | cons x _ ih => simp only [toks, ih]
  | swap x y l => simp only [toks, star_left_comm]
  | trans _ _ ih1 ih2 => rw [ih1, ih2]

/-- the contract -/
noncomputable def depot_sound (f : Nat → Prop) (S : List (Nat × List UInt8)) : Sound (depot f S).A f where
  Inv _ _ L := fun h => (∀ c ∈ L, Good c.1 c.2 ∧ f c.2) ∧ toks L h
  objAlign := rfl
  perm := by
    rintro b s L L' h hp ⟨h1, h2⟩
    exact ⟨fun x hx => h1 x (hp.mem_iff.2 hx), by rw [← toks_perm hp]; exact h2⟩
  init_spec := by
    intro b _ _ _
    refine Triple.pure _ fun h hh => ?_
    have hh : bytes b 0 h := hh
    rw [bytes_zero] at hh
    exact ⟨by simp, hh⟩
  alloc_spec := by
    intro b s L n hf hn
    refine Triple.and fun hl => ?_
    have := ((depotAl_triple f S n hf hn).frame (toks L))
    rw [emp_star] at this
    refine Triple.bind this fun r => Triple.pure _ fun h hh => ?_
    obtain ⟨h1, h2, hd, rfl, (⟨h3, h4⟩ | ⟨hg, h4⟩), h5⟩ := hh
    · have h4 : h1 = Heap.empty := h4
      subst h4
      exact .inl ⟨h3, hl, by rw [Heap.empty_add]; exact h5⟩
    · refine .inr ⟨hg, ?_⟩
      rw [star_and]
      refine ⟨fun c hc => ?_, ?_⟩
      · rcases List.mem_cons.1 hc with rfl | hc
        · exact ⟨hg, hf⟩
        · exact hl c hc
      · show ((tok r n ∗ toks L) ∗ bytes r n) _
        have e : ((tok r n ∗ toks L) ∗ bytes r n) = ((tok r n ∗ bytes r n) ∗ toks L) := by ac_rfl
        rw [e]
        exact ⟨h1, h2, hd, rfl, h4, h5⟩
  dealloc_local := by
    intro b s p bs R k _
    rw [star_and]
    refine apart_and fun hl => ?_
    have := (depotDe_triple p bs.length).frame (toks (R.map blk))
    rw [emp_star] at this
    refine Triple.bind (this.pre fun h hh => ?_) fun _ => Triple.pure _ fun h hh => ⟨fun x hx => hl x (List.mem_cons_of_mem _ hx), hh⟩
    have e : ((tok p bs.length ∗ toks (R.map blk)) ∗ bytes p bs.length) = ((tok p bs.length ∗ bytes p bs.length) ∗ toks (R.map blk)) := by ac_rfl
    rw [← e]
    exact star_mono_right (fun _ h => bytesV_length h) h hh.2
  live_good := by
    rintro b s L h p n ⟨hl, _⟩ hm
    exact hl _ hm
  live_max := by intro f hf; cases hf
  owns_sound := by intro f hf; cases hf
  owns_complete := by intro f hf; cases hf
  construct_spec := by intro f hf; cases hf
  destroy_spec := by intro f hf; cases hf
  fini_spec := by
    intro b s
    refine Triple.pure _ fun h hh => ?_
    show bytes b 0 h
    rw [bytes_zero]
    exact hh.2

/-! ### The depot does what the oracle does -/

/-- The books agree. Proof helper, not code. -/
structure Match (S : List (Nat × List UInt8)) (s : Oracle) (w1 w2 : World) : Prop where
  b : ∀ x, w2.heap.b x = w1.heap.b x
  t : ∀ p n, w2.heap.t p = some n ↔ (p, n) ∈ s.live
  nodup : s.live.Nodup
  full : ∀ p n, (p, n) ∈ s.live → 0 < n ∧ (w1.heap.b p).isSome = true ∧ ∀ x, p ≤ x → x < p + n → (w1.heap.b x).isSome = true
  apart : ∀ p n q m, (p, n) ∈ s.live → (q, m) ∈ s.live → p ≠ q → p + n ≤ q ∨ q + m ≤ p
  script : s.script = S.drop w2.tick

/-- Proof helper, not code. -/
def MatchRes {α : Type} (S : List (Nat × List UInt8)) : Res α → Res (Oracle × α) → Prop
  | .ok a w2, .ok r w1 => r.2 = a ∧ Match S r.1 w1 w2
  | .oom _, .oom _ => True
  | .ub, .ub => True
  | _, _ => False

theorem depot_oracle {α : Type} {f : Nat → Prop} (h0 : ∀ n, f n → 0 < n) (S : List (Nat × List UInt8)) (T : Prog α) (s : Oracle) (w1 w2 : World)
    (hm : Match S s w1 w2) (hub : T.on (depot f S) w2 ≠ .ub) : MatchRes S (T.on (depot f S) w2) (T.seq (oracle f) s w1) := by
  induction T generalizing s w1 w2 with
  | ret a => exact ⟨rfl, hm⟩
  | stop => trivial
  | ub => exact (hub rfl).elim
  | load p k ih =>
    simp only [Prog.on, Prog.seq, M.bind_apply, M.load, hm.b] at hub ⊢
    cases e : w1.heap.b p with
    | none => trivial
    | some v => rw [e] at hub; exact ih v s w1 w2 hm hub
  | store p v k ih =>
    simp only [Prog.on, Prog.seq, M.bind_apply, M.store, hm.b] at hub ⊢
    cases e : w1.heap.b p with
    | none => rw [e] at hub; exact (hub rfl).elim
    | some v' =>
      rw [e] at hub
      refine ih s _ _ ⟨fun x => ?_, hm.t, hm.nodup, fun q n hq => ?_, hm.apart, hm.script⟩ hub
      · simp only
      · obtain ⟨h1, h2, h3⟩ := hm.full q n hq
        have key : ∀ x, (w1.heap.b x).isSome = true → ((fun x => if x = p then some v else w1.heap.b x) x).isSome = true := fun x hx => by
          simp only
          split
          · rfl
          · exact hx
        exact ⟨h1, key q h2, fun x hx hx' => key x (h3 x hx hx')⟩
  | alloc n k ih =>
    have e1 : (Prog.alloc n k).on (depot f S) = (depotAl f S n >>= fun p => (k p).on (depot f S)) := rfl
    have e2 : (Prog.alloc n k).seq (oracle f) s = (Oracle.alloc f s n >>= fun r => (k r.1).seq (oracle f) r.2) := rfl
    rw [e1, M.bind_apply] at hub
    rw [e1, e2, M.bind_apply, M.bind_apply]
    unfold depotAl at hub ⊢
    unfold Oracle.alloc
    by_cases hf : f n ∧ n < W64
    · rw [if_pos hf] at hub ⊢
      rw [if_pos hf, hm.script]
      cases hS : S[w2.tick]? with
      | none =>
        rw [List.drop_eq_nil_of_le (List.getElem?_eq_none_iff.1 hS)]
        trivial
      | some a =>
        obtain ⟨hlt, ha⟩ := List.getElem?_eq_some_iff.1 hS
        rw [hS] at hub
        rw [List.drop_eq_getElem_cons hlt, ha]
        simp only at hub ⊢
        by_cases hz : a.1 = 0
        · rw [if_pos hz] at hub ⊢
          rw [if_pos hz]
          exact ih 0 _ _ _ ⟨hm.b, hm.t, hm.nodup, hm.full, hm.apart, rfl⟩ hub
        · rw [if_neg hz] at hub ⊢
          rw [if_neg hz]
          by_cases hc : Good a.1 n ∧ a.2.length = n ∧ ∀ x, a.1 ≤ x → x < a.1 + n → w1.heap.b x = none
          · have hn := h0 n hf.1
            have ht : w2.heap.t a.1 = none := by
              cases e : w2.heap.t a.1 with
              | none => rfl
              | some m =>
                have := (hm.full _ _ ((hm.t _ _).1 e)).2.1
                rw [hc.2.2 a.1 (Nat.le_refl _) (by omega)] at this; cases this
            have hc' : Good a.1 n ∧ a.2.length = n ∧ (∀ x, a.1 ≤ x → x < a.1 + n → w2.heap.b x = none) ∧ w2.heap.t a.1 = none :=
              ⟨hc.1, hc.2.1, fun x h1 h2 => by rw [hm.b]; exact hc.2.2 x h1 h2, ht⟩
            rw [if_pos hc'] at hub ⊢
            rw [if_pos hc]
            have hnew : ∀ m, (a.1, m) ∉ s.live := fun m h => by
              have := (hm.t _ _).2 h
              rw [ht] at this; cases this
            have hin : ∀ x, a.1 ≤ x ∧ x < a.1 + a.2.length → ((Oracle.put w1 a.1 a.2).heap.b x).isSome = true := fun x hx => by
              show (if a.1 ≤ x ∧ x < a.1 + a.2.length then a.2[x - a.1]? else w1.heap.b x).isSome = true
              rw [if_pos hx, List.getElem?_eq_getElem (by omega)]; rfl
            have hold : ∀ x, (w1.heap.b x).isSome = true → ((Oracle.put w1 a.1 a.2).heap.b x).isSome = true := fun x hx => by
              by_cases h : a.1 ≤ x ∧ x < a.1 + a.2.length
              · exact hin x h
              · show (if a.1 ≤ x ∧ x < a.1 + a.2.length then a.2[x - a.1]? else w1.heap.b x).isSome = true
                rw [if_neg h]; exact hx
            have hap : ∀ q m, (q, m) ∈ s.live → a.1 + n ≤ q ∨ q + m ≤ a.1 := fun q m h => by
              obtain ⟨h1, _, h3⟩ := hm.full q m h
              refine Classical.byContradiction fun hn' => ?_
              have := h3 (max a.1 q) (by omega) (by omega)
              rw [hc.2.2 _ (by omega) (by omega)] at this; cases this
            refine ih a.1 _ _ _ ⟨fun x => ?_, fun q m => ?_, ?_, fun q m hq => ?_, fun q m q' m' h1 h2 hne => ?_, rfl⟩ hub
            · show (if a.1 ≤ x ∧ x < a.1 + a.2.length then a.2[x - a.1]? else w2.heap.b x) = (if a.1 ≤ x ∧ x < a.1 + a.2.length then a.2[x - a.1]? else w1.heap.b x)
              rw [hm.b]
            · show (if q = a.1 then some n else w2.heap.t q) = some m ↔ (q, m) ∈ (a.1, n) :: s.live
              by_cases hq : q = a.1
              · subst hq
                rw [if_pos rfl]
                constructor
                · intro h; cases h; exact List.mem_cons_self
                · intro h
                  rcases List.mem_cons.1 h with h | h
                  · cases h; rfl
                  · exact (hnew _ h).elim
              · rw [if_neg hq, hm.t]
                constructor
                · exact fun h => List.mem_cons_of_mem _ h
                · intro h
                  rcases List.mem_cons.1 h with h | h
                  · cases h; exact (hq rfl).elim
                  · exact h
            · exact List.nodup_cons.2 ⟨hnew _, hm.nodup⟩
            · rcases List.mem_cons.1 hq with h | h
              · cases h
                refine ⟨hn, hin _ ⟨Nat.le_refl _, by omega⟩, fun x h1 h2 => hin x ⟨h1, by omega⟩⟩
              · obtain ⟨h1, h2, h3⟩ := hm.full q m h
                exact ⟨h1, hold _ h2, fun x hx hx' => hold x (h3 x hx hx')⟩
            · rcases List.mem_cons.1 h1 with e1 | e1 <;> rcases List.mem_cons.1 h2 with e2 | e2
              · cases e1; cases e2; exact (hne rfl).elim
              · cases e1; exact hap _ _ e2
              · cases e2; exact (hap _ _ e1).symm
              · exact hm.apart _ _ _ _ e1 e2 hne
          · have hc' : ¬ (Good a.1 n ∧ a.2.length = n ∧ (∀ x, a.1 ≤ x → x < a.1 + n → w2.heap.b x = none) ∧ w2.heap.t a.1 = none) :=
              fun h => hc ⟨h.1, h.2.1, fun x h1 h2 => by rw [← hm.b]; exact h.2.2.1 x h1 h2⟩
            rw [if_neg hc', if_neg hc]
            trivial
    · rw [if_neg hf] at hub
      exact (hub rfl).elim
  | dealloc p n k ih =>
    have e1 : (Prog.dealloc p n k).on (depot f S) = (depotDe p n >>= fun _ => k.on (depot f S)) := rfl
    have e2 : (Prog.dealloc p n k).seq (oracle f) s = (Oracle.dealloc s p n >>= fun r => k.seq (oracle f) r) := rfl
    rw [e1, M.bind_apply] at hub
    rw [e1, e2, M.bind_apply, M.bind_apply]
    unfold depotDe at hub ⊢
    unfold Oracle.dealloc
    by_cases ht : w2.heap.t p = some n
    · have hl := (hm.t _ _).1 ht
      rw [if_pos ht] at hub ⊢
      rw [if_pos hl]
      have huniq : ∀ m, (p, m) ∈ s.live → m = n := fun m h => by
        have := (hm.t _ _).2 h
        rw [ht] at this; cases this; rfl
      have hmem : ∀ q m, (q, m) ∈ s.live.erase (p, n) ↔ q ≠ p ∧ (q, m) ∈ s.live := fun q m => by
        rw [hm.nodup.mem_erase_iff]
        constructor
        · rintro ⟨h1, h2⟩
          refine ⟨fun e => ?_, h2⟩
          subst e
          exact h1 (by rw [huniq m h2])
        · rintro ⟨h1, h2⟩
          exact ⟨fun e => h1 (by cases e; rfl), h2⟩
      refine ih _ _ _ ⟨fun x => ?_, fun q m => ?_, hm.nodup.erase _, fun q m hq => ?_, fun q m q' m' h1 h2 => ?_, hm.script⟩ hub
      · show (if p ≤ x ∧ x < p + n then none else w2.heap.b x) = (if p ≤ x ∧ x < p + n then none else w1.heap.b x)
        rw [hm.b]
      · show (if q = p then none else w2.heap.t q) = some m ↔ (q, m) ∈ s.live.erase (p, n)
        rw [hmem]
        by_cases hq : q = p
        · rw [if_pos hq]
          exact ⟨fun h => (by cases h), fun h => (h.1 hq).elim⟩
        · rw [if_neg hq, hm.t]
          exact ⟨fun h => ⟨hq, h⟩, fun h => h.2⟩
      · obtain ⟨h1, h2⟩ := (hmem q m).1 hq
        obtain ⟨h3, h4, h5⟩ := hm.full q m h2
        have hap := hm.apart q m p n h2 hl h1
        have key : ∀ x, q ≤ x → x < q + m → ((Oracle.cut w1 p n).heap.b x).isSome = true := fun x hx hx' => by
          show (if p ≤ x ∧ x < p + n then none else w1.heap.b x).isSome = true
          rw [if_neg (by omega)]; exact h5 x hx hx'
        exact ⟨h3, key q (Nat.le_refl _) (by omega), key⟩
      · exact hm.apart _ _ _ _ ((hmem _ _).1 h1).2 ((hmem _ _).1 h2).2
    · rw [if_neg ht] at hub
      exact (hub rfl).elim

/-- What a program does with the depot it does in a thread. -/
theorem safe_of_depot {α : Type} {f : Nat → Prop} (h0 : ∀ n, f n → 0 < n) {Q : α → Prop} {T : Prog α}
    (hT : ∀ S, Triple emp (T.on (depot f S)) (fun a h => Q a ∧ emp h)) : Safe f Q T [] := by
  refine safe_of_alone f Q T [] ⟨Heap.empty, rfl⟩ ⟨[], .nil, fun script w hw => ?_⟩
  have hw : w.heap = Heap.empty := hw
  have hm : Match script ⟨script, []⟩ w { heap := Heap.empty } := by
    refine ⟨fun x => by rw [hw], fun p n => ⟨fun h => (by cases h), fun h => (by cases h)⟩, .nil, fun _ _ h => (by cases h),
      fun _ _ _ _ h => (by cases h), rfl⟩
  have ht := hT script { heap := Heap.empty } Heap.empty Heap.empty (Heap.disj_empty _) (Heap.add_empty _).symm rfl
  have := depot_oracle h0 script T ⟨script, []⟩ w { heap := Heap.empty } hm (fun e => by rw [e] at ht; exact ht)
  cases e : T.on (depot f script) { heap := Heap.empty } with
  | ok a w2 =>
    rw [e] at ht this
    obtain ⟨⟨h', _, he, hq, hemp⟩, _⟩ := ht
    have hemp : h' = Heap.empty := hemp
    rw [hemp, Heap.add_empty] at he
    cases e1 : T.seq (oracle f) (⟨script, []⟩ : Oracle) w with
    | ok r w1 =>
      rw [e1] at this
      obtain ⟨rfl, hm'⟩ := this
      refine ⟨List.eq_nil_iff_forall_not_mem.2 fun x hx => ?_, hq⟩
      have := (hm'.t x.1 x.2).2 hx
      rw [he] at this; cases this
    | oom w1 => trivial
    | ub => rw [e1] at this; exact this
  | oom w2 =>
    rw [e] at this
    cases e1 : T.seq (oracle f) (⟨script, []⟩ : Oracle) w with
    | ok r w1 => rw [e1] at this; exact this.elim
    | oom w1 => trivial
    | ub => rw [e1] at this; exact this
  | ub => rw [e] at ht; exact ht.elim

theorem Safe.mono {α : Type} {f g : Nat → Prop} (hfg : ∀ n, f n → g n) {Q : α → Prop} {T : Prog α} {R : List (Nat × List UInt8)}
    (h : Safe f Q T R) : Safe g Q T R := by
  induction T generalizing R with
  | ret a => exact h
  | stop => trivial
  | ub => exact h
  | load p k ih =>
    obtain ⟨q, bs, v, h1, h2, h3, h4⟩ := h
    exact ⟨q, bs, v, h1, h2, h3, ih v h4⟩
  | store p v k ih =>
    obtain ⟨q, bs, R', h1, h2, h3, h4⟩ := h
    exact ⟨q, bs, R', h1, h2, h3, ih h4⟩
  | alloc n k ih =>
    obtain ⟨h1, h2, h3, h4⟩ := h
    exact ⟨hfg n h1, h2, ih 0 h3, fun p bs hg hl hc => ih p (h4 p bs hg hl hc)⟩
  | dealloc p n k ih =>
    obtain ⟨bs, R', h1, h2, h3⟩ := h
    exact ⟨bs, R', h1, h2, ih h3⟩

end KTL
