import Verif.Base.Post
import Verif.Spec.Demo
import Verif.Spec.Handing
import Verif.Props.Move
import Verif.Props.Handles
import Verif.Props.Copies

/- C70: allocators that compare equal are interchangeable. -/
namespace KTL

/-- A block can be accounted to another object that looks the same. Proof helper. -/
def Transfers {A : Allocator} {fA : Nat → Prop} (hA : Sound A fA) (v : Nat → A.St → Val) : Prop :=
  ∀ b1 s1 b2 s2 p n L1 L2 h, v b1 s1 = v b2 s2 → (hA.Inv b1 s1 ((p, n) :: L1) ∗ hA.Inv b2 s2 L2) h →
    (hA.Inv b1 s1 L1 ∗ hA.Inv b2 s2 ((p, n) :: L2)) h

theorem bytes_twice {p n : Nat} {P Q : HProp} {h : Heap} (hn : 0 < n) (hh : ((bytes p n ∗ P) ∗ (bytes p n ∗ Q)) h) : False := by
  have e : ((bytes p n ∗ P) ∗ (bytes p n ∗ Q)) = (bytes p n ∗ bytes p n ∗ (P ∗ Q)) := by ac_rfl
  rw [e] at hh
  exact star_bytes_disj hh p (by omega) (by omega)

theorem null_transfers : Transfers null_sound (fun _ _ => .null) := by
  rintro b1 s1 b2 s2 p n L1 L2 h - ⟨h1, h2, _, rfl, ⟨h3, _⟩, _⟩
  cases h3

theorem mallocator_transfers (sys : Sys) : Transfers (mallocator_sound sys) (fun _ _ => .mallocator) := by
  rintro b1 s1 b2 s2 p n L1 L2 h - ⟨h1, h2, hd, rfl, ⟨h3, h4⟩, h5, h6⟩
  have : (mToks sys.plat ((p, n) :: L1) ∗ mToks sys.plat L2) (h1.add h2) := ⟨h1, h2, hd, rfl, h4, h6⟩
  have e : (mToks sys.plat ((p, n) :: L1) ∗ mToks sys.plat L2) = (mToks sys.plat L1 ∗ mToks sys.plat ((p, n) :: L2)) := by
    simp only [mToks]; ac_rfl
  rw [e] at this
  refine star_mono (fun _ h => ⟨fun b hb => h3 b (List.mem_cons_of_mem _ hb), h⟩) (fun _ h => ⟨fun b hb => ?_, h⟩) _ this
  rcases List.mem_cons.1 hb with rfl | hb
  · exact h3 _ List.mem_cons_self
  · exact h5 b hb

theorem linear_once {Size b1 b2 : Nat} {s1 s2 : Linear.St} {L1 L2 : List (Nat × Nat)} {h : Heap} (hv : s1.base = s2.base)
    (hh : ((linear_sound Size).Inv b1 s1 L1 ∗ (linear_sound Size).Inv b2 s2 L2) h) : False := by
  obtain ⟨h1, h2, hd, rfl, ⟨_, k1, q1⟩, _, k2, q2⟩ := hh
  have e : b1 = b2 := by rw [← k1.base_eq, ← k2.base_eq, hv]
  subst e
  refine bytesS_disj (S := _) (T := _) ⟨h1, h2, hd, rfl, q1, q2⟩ (b1 + Linear.objSize Size - 1) ?_ ?_
  · refine ⟨by unfold Linear.objSize; omega, fun ⟨c, hc, hx⟩ => ?_⟩
    have := k1.blocks c hc
    unfold Linear.objSize at hx; omega
  · refine ⟨by unfold Linear.objSize; omega, fun ⟨c, hc, hx⟩ => ?_⟩
    have := k2.blocks c hc
    unfold Linear.objSize at hx; omega

theorem linear_transfers (Size : Nat) : Transfers (linear_sound Size) (fun _ s => .linear (s : Linear.St).base) := by
  intro b1 s1 b2 s2 p n L1 L2 h hv hh
  injection hv with hv
  exact (linear_once hv hh).elim

theorem stack_transfers (Size : Nat) : Transfers (stack_sound Size) (fun _ s => .stack (s : Stack).data) := by
  intro b1 s1 b2 s2 p n L1 L2 h hv hh
  injection hv with hv
  exact (linear_once (s1 := s1.lin) (s2 := s2.lin) hv hh).elim

section
variable {A : Allocator} {fA : Nat → Prop} {hA : Sound A fA} {v : Nat → A.St → Val}

theorem threaded_transfers (ht : Transfers hA v) : Transfers (threaded_sound hA) (fun b s => .threaded (v b s)) := by
  intro b1 s1 b2 s2 p n L1 L2 h hv hh
  injection hv with hv
  have e : ∀ K1 K2, ((threaded_sound hA).Inv b1 s1 K1 ∗ (threaded_sound hA).Inv b2 s2 K2) =
      ((hA.Inv b1 s1 K1 ∗ hA.Inv b2 s2 K2) ∗ bytes (b1 + A.objSize) 48 ∗ bytes (b2 + A.objSize) 48) := by
    intro K1 K2
    show ((hA.Inv b1 s1 K1 ∗ bytes (b1 + A.objSize) 48) ∗ (hA.Inv b2 s2 K2 ∗ bytes (b2 + A.objSize) 48)) = _
    ac_rfl
  rw [e] at hh ⊢
  exact star_mono_left (fun h hh => ht _ _ _ _ _ _ _ _ h hv hh) h hh

theorem reference_transfers : Transfers (reference_sound hA) (fun b s => .reference b (v b s)) := by
  intro b1 s1 b2 s2 p n L1 L2 h hv hh
  injection hv with hb hv
  subst hb
  refine (bytes_twice (p := b1 + A.objSize) (n := 16) (P := hA.Inv b1 s1 ((p, n) :: L1)) (Q := hA.Inv b1 s2 L2) (h := h) (by omega) ?_).elim
  rw [star_comm (bytes _ _), star_comm (bytes _ _)]
  exact hh

theorem shared_transfers {sys : Sys} {hsz} : Transfers (shared_sound sys hA hsz) (fun _ s => .shared s.1 (v s.1 s.2)) := by
  rintro b1 s1 b2 s2 p n L1 L2 h hv ⟨h1, h2, hd, rfl, ⟨_, h3⟩, _, h4⟩
  injection hv with hb hv
  rw [star_left_comm] at h3 h4
  rw [← hb] at h4
  exact (bytes_twice (by omega) ⟨h1, h2, hd, rfl, h3, h4⟩).elim

theorem cascading_transfers {sys : Sys} {ho hmax hsz} : Transfers (cascading_sound sys hA ho hmax hsz)
    (fun _ s => .cascading (Cascading.firstAddr s)) := by
  rintro b1 s1 b2 s2 p n L1 L2 h hv ⟨h1, h2, hd, rfl, ⟨_, N1, ⟨rfl, o1, p1⟩, q1⟩, _, N2, ⟨rfl, o2, p2⟩, q2⟩
  injection hv with hv
  cases N1 with
  | nil => exact absurd p1.length_eq (by simp)
  | cons x N1 =>
    cases N2 with
    | nil => exact absurd hv (o1 x List.mem_cons_self).2
    | cons y N2 =>
      have hv : x.1.addr = y.1.addr := hv
      simp only [Cascading.nodesInv] at q1 q2
      rw [← hv] at q2
      have e : ∀ (a b c d f : HProp), (((a ∗ b ∗ c) ∗ d) ∗ f) = (b ∗ (a ∗ c ∗ d ∗ f)) := by intros; ac_rfl
      rw [e] at q1 q2
      exact (bytes_twice (by omega) ⟨h1, h2, hd, rfl, q1, q2⟩).elim

theorem overflow_transfers (ht : Transfers hA v) : Transfers (overflow_sound hA) (fun b s => .overflow (v b (s : Overflow.St A.St).a)) := by
  rintro b1 s1 b2 s2 p n L1 L2 h hv ⟨h1, h2, hd, rfl, ⟨h3, h4⟩, h5, h6⟩
  injection hv with hv
  have hh : ((hA.Inv b1 s1.a (((p, n) :: L1).map Overflow.wide) ∗ Overflow.guards ((p, n) :: L1) ∗ bytes (b1 + A.objSize) 32) ∗
    (hA.Inv b2 s2.a (L2.map Overflow.wide) ∗ Overflow.guards L2 ∗ bytes (b2 + A.objSize) 32)) (h1.add h2) := ⟨h1, h2, hd, rfl, h4, h6⟩
  have e : ∀ X Y : HProp, ((X ∗ Overflow.guards ((p, n) :: L1) ∗ bytes (b1 + A.objSize) 32) ∗ (Y ∗ Overflow.guards L2 ∗ bytes (b2 + A.objSize) 32)) =
      ((X ∗ Y) ∗ (Overflow.guards L1 ∗ bytes (b1 + A.objSize) 32 ∗ Overflow.guards ((p, n) :: L2) ∗ bytes (b2 + A.objSize) 32)) := by
    intro X Y
    simp only [Overflow.guards]; ac_rfl
  rw [e] at hh
  have hh := star_mono_left (fun h hh => ht _ _ _ _ _ _ _ _ h hv hh) _ hh
  have e2 : ∀ X Y : HProp, ((X ∗ Y) ∗ (Overflow.guards L1 ∗ bytes (b1 + A.objSize) 32 ∗ Overflow.guards ((p, n) :: L2) ∗ bytes (b2 + A.objSize) 32)) =
      ((X ∗ Overflow.guards L1 ∗ bytes (b1 + A.objSize) 32) ∗ (Y ∗ Overflow.guards ((p, n) :: L2) ∗ bytes (b2 + A.objSize) 32)) := by
    intro X Y; ac_rfl
  rw [e2] at hh
  refine star_mono (fun _ h => ⟨fun b hb => h3 b (List.mem_cons_of_mem _ hb), h⟩) (fun _ h => ⟨fun b hb => ?_, h⟩) _ hh
  rcases List.mem_cons.1 hb with rfl | hb
  · exact h3 _ List.mem_cons_self
  · exact h5 b hb

theorem freelist_transfers {Min Max : Nat} {h8 hW} (ht : Transfers hA v) : Transfers (freelist_sound Min Max hA h8 hW)
    (fun b s => .freelist (v b (s : Freelist.St A.St).a) (s : Freelist.St A.St).free) := by
  rintro b1 s1 b2 s2 p n L1 L2 h hv ⟨h1, h2, hd, rfl, ⟨h3, R1, f1, h4⟩, h5, R2, f2, h6⟩
  injection hv with hv hf
  have hh : ((hA.Inv b1 s1.a (((p, n) :: L1).map (Freelist.full Max) ++ R1.map blk) ∗ Freelist.slack Max ((p, n) :: L1) ∗ blocksV R1 ∗ bytes (b1 + A.objSize) 16) ∗
    (hA.Inv b2 s2.a (L2.map (Freelist.full Max) ++ R2.map blk) ∗ Freelist.slack Max L2 ∗ blocksV R2 ∗ bytes (b2 + A.objSize) 16)) (h1.add h2) := ⟨h1, h2, hd, rfl, h4, h6⟩
  have e : ∀ X Y : HProp, ((X ∗ Freelist.slack Max ((p, n) :: L1) ∗ blocksV R1 ∗ bytes (b1 + A.objSize) 16) ∗
      (Y ∗ Freelist.slack Max L2 ∗ blocksV R2 ∗ bytes (b2 + A.objSize) 16)) =
      ((X ∗ Y) ∗ (Freelist.slack Max L1 ∗ blocksV R1 ∗ bytes (b1 + A.objSize) 16 ∗ Freelist.slack Max ((p, n) :: L2) ∗ blocksV R2 ∗ bytes (b2 + A.objSize) 16)) := by
    intro X Y
    simp only [Freelist.slack]; ac_rfl
  rw [e, List.map_cons, List.cons_append] at hh
  have hh := star_mono_left (fun h hh => ht _ _ _ _ _ _ _ _ h hv hh) _ hh
  have e2 : ∀ X Y : HProp, ((X ∗ Y) ∗ (Freelist.slack Max L1 ∗ blocksV R1 ∗ bytes (b1 + A.objSize) 16 ∗ Freelist.slack Max ((p, n) :: L2) ∗ blocksV R2 ∗ bytes (b2 + A.objSize) 16)) =
      ((X ∗ Freelist.slack Max L1 ∗ blocksV R1 ∗ bytes (b1 + A.objSize) 16) ∗ (Y ∗ Freelist.slack Max ((p, n) :: L2) ∗ blocksV R2 ∗ bytes (b2 + A.objSize) 16)) := by
    intro X Y; ac_rfl
  rw [e2] at hh
  refine star_mono (fun _ h => ⟨fun b hb => h3 b (List.mem_cons_of_mem _ hb), R1, f1, h⟩) (fun _ h => ⟨fun b hb => ?_, R2, f2, h⟩) _ hh
  rcases List.mem_cons.1 hb with rfl | hb
  · exact h3 _ List.mem_cons_self
  · exact h5 b hb

end

section
variable {P F : Allocator} {fP fF : Nat → Prop} {hP : Sound P fP} {hF : Sound F fF} {v u : Nat → _ → Val}

theorem fallback_transfers {ho} (hv : Transfers hP v) (hu : Transfers hF u) : Transfers (fallback_sound hP hF ho)
    (fun b s => .fallback (v b s.1) (u (b + P.objSize) s.2)) := by
  rintro b1 s1 b2 s2 p n L1 L2 h he ⟨h1, h2, hd, rfl, ⟨g1, X1, Y1, p1, h3⟩, g2, X2, Y2, p2, h4⟩
  injection he with e1 e2
  have hg2 : ∀ c ∈ (p, n) :: L2, FallbackFits fP fF c.2 := by
    intro b hb
    rcases List.mem_cons.1 hb with rfl | hb
    · exact g1 _ List.mem_cons_self
    · exact g2 b hb
  have hg1 : ∀ c ∈ L1, FallbackFits fP fF c.2 := fun b hb => g1 b (List.mem_cons_of_mem _ hb)
  have sw : ∀ a b c d : HProp, ((a ∗ b) ∗ (c ∗ d)) = ((a ∗ c) ∗ (b ∗ d)) := by intros; ac_rfl
  have hh : ((hP.Inv b1 s1.1 X1 ∗ hF.Inv (b1 + P.objSize) s1.2 Y1) ∗ (hP.Inv b2 s2.1 X2 ∗ hF.Inv (b2 + P.objSize) s2.2 Y2)) (h1.add h2) :=
    ⟨h1, h2, hd, rfl, h3, h4⟩
  rw [sw] at hh
  have hm : (p, n) ∈ X1 ++ Y1 := p1.mem_iff.1 List.mem_cons_self
  rcases List.mem_append.1 hm with hm | hm
  · have px := List.perm_cons_erase hm
    have hh := star_mono_left (fun h hh => hv _ _ _ _ _ _ _ _ h e1 (star_mono_left (fun _ h => hP.perm px h) h hh)) _ hh
    rw [sw] at hh
    refine star_mono (fun _ h => ⟨hg1, X1.erase (p, n), Y1, ?_, h⟩) (fun _ h => ⟨hg2, (p, n) :: X2, Y2, p2.cons _, h⟩) _ hh
    exact (p1.trans (px.append_right _)).cons_inv
  · have py := List.perm_cons_erase hm
    have hh := star_mono_right (fun h hh => hu _ _ _ _ _ _ _ _ h e2 (star_mono_left (fun _ h => hF.perm py h) h hh)) _ hh
    rw [sw] at hh
    refine star_mono (fun _ h => ⟨hg1, X1, Y1.erase (p, n), ?_, h⟩) (fun _ h => ⟨hg2, X2, (p, n) :: Y2, (p2.cons _).trans List.perm_middle.symm, h⟩) _ hh
    exact (p1.trans ((py.append_left _).trans List.perm_middle)).cons_inv

theorem segragator_transfers {T : Nat} (hv : Transfers hP v) (hu : Transfers hF u) : Transfers (segragator_sound T hP hF)
    (fun b s => .segragator (v b s.1) (u (b + P.objSize) s.2)) := by
  rintro b1 s1 b2 s2 p n L1 L2 h he ⟨h1, h2, hd, rfl, ⟨g1, h3⟩, g2, h4⟩
  injection he with e1 e2
  have hg2 : ∀ c ∈ (p, n) :: L2, SegFits T fP fF c.2 := by
    intro b hb
    rcases List.mem_cons.1 hb with rfl | hb
    · exact g1 _ List.mem_cons_self
    · exact g2 b hb
  have hg1 : ∀ c ∈ L1, SegFits T fP fF c.2 := fun b hb => g1 b (List.mem_cons_of_mem _ hb)
  have sw : ∀ a b c d : HProp, ((a ∗ b) ∗ (c ∗ d)) = ((a ∗ c) ∗ (b ∗ d)) := by intros; ac_rfl
  have hh : ((hP.Inv b1 s1.1 (lo T ((p, n) :: L1)) ∗ hF.Inv (b1 + P.objSize) s1.2 (hi T ((p, n) :: L1))) ∗
    (hP.Inv b2 s2.1 (lo T L2) ∗ hF.Inv (b2 + P.objSize) s2.2 (hi T L2))) (h1.add h2) := ⟨h1, h2, hd, rfl, h3, h4⟩
  rw [sw] at hh
  refine star_mono (fun _ h => ⟨hg1, h⟩) (fun _ h => ⟨hg2, h⟩) _ (show _ from ?_)
  by_cases hn : n ≤ T
  · rw [lo_cons_le hn, hi_cons_le hn] at hh
    rw [lo_cons_le hn, hi_cons_le hn]
    rw [sw]
    exact star_mono_left (fun h hh => hv _ _ _ _ _ _ _ _ h e1 hh) _ hh
  · rw [lo_cons_gt hn, hi_cons_gt hn] at hh
    rw [lo_cons_gt hn, hi_cons_gt hn]
    rw [sw]
    exact star_mono_right (fun h hh => hu _ _ _ _ _ _ _ _ h e2 hh) _ hh

end

theorem AllocTy.transfers (sys : Sys) : ∀ (t : AllocTy) (hwf : t.WF), Transfers (t.sound sys hwf) (t.view sys)
  | null, _ => null_transfers
  | mallocator, _ => mallocator_transfers sys
  | linear S, _ => linear_transfers S
  | stack S, _ => stack_transfers S
  | freelist _ _ A, h => freelist_transfers (AllocTy.transfers sys A h.1)
  | fallback P F, h => by
    have := fallback_transfers (ho := by rw [owns_isSome]; exact h.2.2) (AllocTy.transfers sys P h.1) (AllocTy.transfers sys F h.2.1)
    rw [P.objSize_eq sys] at this
    exact this
  | segragator T P F, h => by
    have := segragator_transfers (T := T) (AllocTy.transfers sys P h.1) (AllocTy.transfers sys F h.2)
    rw [P.objSize_eq sys] at this
    exact this
  | cascading A, h => cascading_transfers
  | overflow A, h => overflow_transfers (AllocTy.transfers sys A h)
  | threaded A, h => threaded_transfers (AllocTy.transfers sys A h)
  | shared A, h => shared_transfers (v := A.view sys)
  | reference A, h => reference_transfers (v := A.view sys)

/-! ### Programs -/

section
variable {A : Allocator} {fA : Nat → Prop} {hA : Sound A fA} {v : Nat → A.St → Val}

theorem hdstep_spec (sys : Sys) (ht : Transfers hA v) (objs : List (MvObj A)) (o : HdOp)
    (ho : ∀ i n, o = .use i (.allocate n) → n < W64 ∧ fA n) :
    Triple (objsInv hA objs) (o.step sys (fun b s c u => (v b s).eq (v c u)) objs) (fun objs' => objsInv hA objs') := by
  have same : Triple (objsInv hA objs) (pure objs : M (List (MvObj A))) (fun objs' => objsInv hA objs') := Triple.pure _ (fun _ h => h)
  cases o with
  | create i =>
    simp only [HdOp.step]
    split
    · rename_i a L R hi
      refine obj_one hi (f := fun s => ⟨a, some s, L, R⟩) ?_
      unfold objInv
      refine Triple.and (fun hg => ?_)
      dsimp only
      rw [star_and]
      refine Triple.and (fun hL => ?_)
      have hL : L = [] := hL
      subst hL
      refine ((hA.init_spec a hg.1 hg.2.1 hg.2.2).frame _).post (fun s h hh => ⟨hg, hh⟩)
    · exact same
  | use i q =>
    simp only [HdOp.step]
    split
    · rename_i a s L R hi
      refine obj_one hi (f := fun c : Client A => ⟨a, some c.st, c.live, c.foreign⟩) ?_
      unfold objInv
      refine Triple.and (fun hg => ?_)
      dsimp only
      refine (step_spec sys hA a { st := s, live := L, foreign := R } q (fun n h => ho i n (by rw [h]))).post (fun c h hh => ⟨hg, hh⟩)
    · exact same
  | hand i k j =>
    simp only [HdOp.step]
    split
    · rename_i a s L R b u K S hi hj
      split
      · rename_i c hc
        split
        · rename_i hx
          have he := C29_eq_same _ _ hx.2
          have := obj_two (hA := hA) hx.1 hi hj (c := (pure () : M Unit)) (f := fun _ => ⟨a, some s, L.eraseIdx k, R⟩)
            (g := fun _ => ⟨b, some u, c :: K, S⟩) ?_
          · exact this
          · refine Triple.pure _ (fun h hh => ?_)
            unfold objInv at hh ⊢
            rw [star_and, star_and'] at hh
            obtain ⟨g1, g2, hh⟩ := hh
            dsimp only at hh
            have hp := perm_eraseIdx hc
            rw [blocksV_perm hp, blocksV_cons] at hh
            have e1 : ∀ X Y : HProp, ((X ∗ (bytesV c.1 c.2 ∗ blocksV (L.eraseIdx k)) ∗ foreignV R) ∗ (Y ∗ blocksV K ∗ foreignV S)) =
                ((X ∗ Y) ∗ (blocksV (L.eraseIdx k) ∗ foreignV R ∗ blocksV (c :: K) ∗ foreignV S)) := by
              intro X Y; rw [blocksV_cons]; ac_rfl
            rw [e1] at hh
            have hh := star_mono_left (fun h hh => ht a s b u c.1 c.2.length ((L.eraseIdx k).map blk) (K.map blk) h he
              (star_mono_left (fun _ h => hA.perm (hp.map blk) h) h hh)) _ hh
            have e2 : ∀ X Y : HProp, ((X ∗ Y) ∗ (blocksV (L.eraseIdx k) ∗ foreignV R ∗ blocksV (c :: K) ∗ foreignV S)) =
                ((X ∗ blocksV (L.eraseIdx k) ∗ foreignV R) ∗ (Y ∗ blocksV (c :: K) ∗ foreignV S)) := by
              intro X Y; ac_rfl
            rw [e2] at hh
            exact star_mono (fun _ h => ⟨g1, h⟩) (fun _ h => ⟨g2, h⟩) h hh
        · exact same
      · exact same
    · exact same
  | destroy i =>
    simp only [HdOp.step]
    split
    · rename_i a s L R hi
      split
      · rename_i hL
        subst hL
        refine obj_one hi (f := fun _ : Unit => ⟨a, none, [], R⟩) ?_
        unfold objInv
        refine Triple.and (fun hg => ?_)
        dsimp only
        refine ((hA.fini_spec a s).frame _).post (fun _ h hh => ⟨hg, ?_⟩)
        exact star_mono_left (fun h hh => ⟨rfl, hh⟩) h hh
      · exact same
    · exact same

theorem hdrun_spec (sys : Sys) (ht : Transfers hA v) (ops : List HdOp) (objs : List (MvObj A))
    (ho : ∀ i n, .use i (.allocate n) ∈ ops → n < W64 ∧ fA n) :
    Triple (objsInv hA objs) (hdrun sys (fun b s c u => (v b s).eq (v c u)) objs ops) (fun objs' => objsInv hA objs') := by
  induction ops generalizing objs with
  | nil => exact Triple.pure _ (fun _ h => h)
  | cons o os ih =>
    refine Triple.bind (hdstep_spec sys ht objs o (fun i n h => ho i n (by rw [h]; exact List.mem_cons_self))) (fun objs' => ?_)
    exact ih objs' (fun i n h => ho i n (List.mem_cons_of_mem _ h))

end

/-- everything about the memory after a program (helper) -/
theorem hdhistory (sys : Sys) (t : AllocTy) (hwf : t.WF) (bs : List Nat) (w : World) (hp : Places w t.size bs) (ops : List HdOp)
    (hops : ∀ i n, .use i (.allocate n) ∈ ops → n < W64 ∧ t.fits sys.plat n) :
    match hdplay sys (t.equal sys) bs ops w with
    | .ok objs w' => ∃ h hf, Heap.disj h hf ∧ w'.heap = h.add hf ∧ objsInv (t.sound sys hwf) objs h ∧
        (∀ x, ¬ (∃ b ∈ bs, b ≤ x ∧ x < b + t.size) → hf.b x = w.heap.b x) ∧ hf.t = w.heap.t
    | .oom w' => w'.failed = true
    | .ub => False := by
  rw [← t.objSize_eq sys] at hp
  obtain ⟨hs, hf, hd, he, hb, _, h2, h3⟩ := places_split (hA := t.sound sys hwf) hp
  have := hdrun_spec sys (t.transfers sys hwf) ops _ hops w hs hf hd he hb
  unfold hdplay
  rw [t.objSize_eq sys] at h2
  rw [show (fun b s c u => (t.view sys b s).eq (t.view sys c u)) = t.equal sys from rfl] at this
  cases hr : hdrun sys (t.equal sys) (bs.map fun b => ⟨b, none, [], []⟩) ops w with
  | ok objs w' =>
    rw [hr] at this
    obtain ⟨⟨h', hd', he', hi⟩, _⟩ := this
    exact ⟨h', hf, hd', he', hi, h2, h3⟩
  | oom w' => rw [hr] at this; exact this
  | ub => rw [hr] at this; exact this

/-- places keep their addresses -/
theorem hdplay_addr (sys : Sys) {A : Allocator} (eq : Nat → A.St → Nat → A.St → Option Bool) (bs : List Nat) (ops : List HdOp) :
    Post (hdplay sys eq bs ops) (fun objs => objs.map MvObj.addr = bs) := by
  have one : ∀ (objs : List (MvObj A)) (i : Nat) (o : MvObj A) (p : MvObj A), objs[i]? = some o → p.addr = o.addr → (objs.set i p).map MvObj.addr = objs.map MvObj.addr := by
    intro objs i o p hi hp
    apply List.ext_getElem?
    intro j
    rw [List.getElem?_map, List.getElem?_map]
    by_cases hij : i = j
    · subst hij
      rw [List.getElem?_set_self (List.getElem?_eq_some_iff.1 hi).1, hi]
      simp [hp]
    · rw [List.getElem?_set_ne hij]
  have two : ∀ (objs : List (MvObj A)) (i j : Nat) (o q : MvObj A) (p r : MvObj A), objs[i]? = some o → objs[j]? = some q → p.addr = o.addr → r.addr = q.addr →
      ((objs.set i p).set j r).map MvObj.addr = objs.map MvObj.addr := by
    intro objs i j o q p r hi hj hp hr
    by_cases hij : i = j
    · subst hij
      rw [List.set_set]
      exact one _ _ _ _ hj hr
    · rw [one (objs.set i p) j q r (by rw [List.getElem?_set_ne hij]; exact hj) hr]
      exact one _ _ _ _ hi hp
  have step : ∀ (objs : List (MvObj A)) (o : HdOp), Post (o.step sys eq objs) (fun objs' => objs'.map MvObj.addr = objs.map MvObj.addr) := by
    intro objs o
    cases o <;> simp only [HdOp.step] <;> split
    · exact Post.bind' (fun s => Post.pure (by apply one; assumption; rfl))
    · exact Post.pure rfl
    · exact Post.bind' (fun s => Post.pure (by apply one; assumption; rfl))
    · exact Post.pure rfl
    · split
      · split
        · exact Post.pure (by apply two; assumption; assumption; rfl; rfl)
        · exact Post.pure rfl
      · exact Post.pure rfl
    · exact Post.pure rfl
    · split
      · exact Post.bind' (fun s => Post.pure (by apply one; assumption; rfl))
      · exact Post.pure rfl
    · exact Post.pure rfl
  have run : ∀ (ops : List HdOp) (objs : List (MvObj A)), Post (hdrun sys eq objs ops) (fun objs' => objs'.map MvObj.addr = objs.map MvObj.addr) := by
    intro ops
    induction ops with
    | nil => exact fun objs => Post.pure rfl
    | cons o os ih => exact fun objs => Post.bind (step objs o) (fun objs' h => (ih objs').mono (fun _ h' => h'.trans h))
  exact (run ops _).mono (fun objs h => by rw [h, List.map_map]; exact List.map_id _)

/-- Requests of a program are not empty and so small that no size computation wraps around 2^64. -/
def HdSane (t : AllocTy) (ops : List HdOp) : Prop := ∀ i n, .use i (.allocate n) ∈ ops → 0 < n ∧ n + t.margin < W64

/-! ### Theorems -/

/-- **C70.** A program with any number of separately constructed allocator objects of the same (composed) type that creates, uses and destroys them, and
that hands blocks over from one object to another one whenever the two compare equal at that moment (so that the other one deallocates
them, at any time later, whether or not the two still compare equal or the first one still exists), never runs into undefined behaviour. At
any time the blocks the client holds are disjoint, properly aligned, and contain what the client wrote, and memory that was there before is
untouched. When all objects have been destroyed, everything has been given back: nothing was leaked, and nothing was freed twice (that
would be undefined behaviour). -/
theorem C70_equal_interchangeable (sys : Sys) (t : AllocTy) (hwf : t.WF) (bs : List Nat) (w : World) (hp : Places w t.size bs)
    (ops : List HdOp) (hops : HdSane t ops) :
    match hdplay sys (t.equal sys) bs ops w with
    | .ok objs w' =>
      (allBlocks objs).Pairwise (fun a d => ∀ x, ¬ ((a.1 ≤ x ∧ x < a.1 + a.2.length) ∧ (d.1 ≤ x ∧ x < d.1 + d.2.length))) ∧
      (∀ a ∈ allBlocks objs, ∀ i (hi : i < a.2.length), w'.heap.b (a.1 + i) = some a.2[i]) ∧
      (∀ o ∈ objs, ∀ a ∈ o.live, a.1 ≠ 0 ∧ a.1 % 16 = 0 ∧ a.1 + a.2.length < W64) ∧
      (∀ x v, ¬ (∃ b ∈ bs, b ≤ x ∧ x < b + t.size) → w.heap.b x = some v → w'.heap.b x = some v) ∧
      ((∀ o ∈ objs, o.st.isNone = true) →
        (∀ x, (∀ o ∈ objs, ∀ f ∈ o.foreign, x ≠ f.1) → w'.heap.t x = w.heap.t x) ∧
        (∀ x, ¬ (∃ b ∈ bs, b ≤ x ∧ x < b + t.size) → (∀ o ∈ objs, ∀ f ∈ o.foreign, ¬ (f.1 ≤ x ∧ x < f.1 + f.2.length)) →
          w'.heap.b x = w.heap.b x))
    | .oom w' => w'.failed = true
    | .ub => False := by
  have hn : ∀ i n, .use i (.allocate n) ∈ ops → n < W64 ∧ t.fits sys.plat n := fun i n h =>
    ⟨by have := (hops i n h).2; omega, t.fits_of_margin sys.plat hwf n (hops i n h).1 (hops i n h).2⟩
  have := hdhistory sys t hwf bs w hp ops hn
  have haddr := hdplay_addr sys (t.equal sys) bs ops
  cases hr : hdplay sys (t.equal sys) bs ops w with
  | oom w' => rw [hr] at this; exact this
  | ub => rw [hr] at this; exact this
  | ok objs w' =>
    rw [hr] at this
    obtain ⟨h, hf, hd, he, hi, h1, h2⟩ := this
    have ha := haddr w objs w' hr
    obtain ⟨g1, g2, dg, hg, hb⟩ := objsInv_blocks hi
    refine ⟨blocksV_pairwise hb, fun a ha i hi' => ?_, fun o ho a ha => ?_, fun x v hx hv => ?_, fun hnone => ?_⟩
    · have e := blocksV_mem hb (show (a.1, a.2) ∈ _ from ha) i hi'
      rw [he, hg, Heap.add_b, Heap.add_b, e]; rfl
    · obtain ⟨i, hi', hoi⟩ := List.getElem_of_mem ho
      have hio : objs[i]? = some o := by rw [List.getElem?_eq_getElem hi', hoi]
      rw [objsInv_perm _ (perm_eraseIdx hio), objsInv] at hi
      obtain ⟨k1, k2, _, rfl, ⟨_, hk⟩, _⟩ := hi
      obtain ⟨ad, st, L, R⟩ := o
      obtain ⟨l1, l2, _, rfl, hl, _⟩ := hk
      cases st with
      | none =>
        have : L = [] := hl.1
        subst this
        simp at ha
      | some s =>
        have := ((t.sound sys hwf).live_good hl (List.mem_map_of_mem (f := blk) ha)).1
        exact ⟨this.1, this.2.1, this.2.2⟩
    · have e : hf.b x = some v := by rw [h1 x hx]; exact hv
      rw [he]
      rcases hd.1 x with e' | e' <;> simp_all
    · obtain ⟨q1, q2⟩ := objsInv_gone hi hnone
      refine ⟨fun x hx => ?_, fun x hx hx' => ?_⟩
      · rw [he, Heap.add_t, q1 x hx, h2]; rfl
      · have hx2 : ∀ o ∈ objs, ¬ (o.addr ≤ x ∧ x < o.addr + (t.denote sys).objSize) := fun o ho hox => by
          rw [t.objSize_eq] at hox
          exact hx ⟨o.addr, by rw [← ha]; exact List.mem_map_of_mem ho, hox⟩
        rw [he, Heap.add_b, q2 x hx2 hx', h1 x hx]; rfl

theorem AllocTy.view_noNull (sys : Sys) : ∀ (t : AllocTy) (b : Nat) (s : (t.denote sys).St), (t.view sys b s).noNullShared = true
  | null, _, _ => rfl
  | mallocator, _, _ => rfl
  | linear _, _, _ => rfl
  | stack _, _, _ => rfl
  | freelist _ _ A, b, s => AllocTy.view_noNull sys A b _
  | fallback P F, b, s => by
    show ((P.view sys b s.1).noNullShared && (F.view sys _ s.2).noNullShared) = true
    rw [AllocTy.view_noNull sys P, AllocTy.view_noNull sys F]; rfl
  | segragator _ P F, b, s => by
    show ((P.view sys b s.1).noNullShared && (F.view sys _ s.2).noNullShared) = true
    rw [AllocTy.view_noNull sys P, AllocTy.view_noNull sys F]; rfl
  | cascading _, _, _ => rfl
  | overflow A, b, s => AllocTy.view_noNull sys A b _
  | threaded A, b, s => AllocTy.view_noNull sys A b s
  | shared A, _, s => AllocTy.view_noNull sys A s.1 s.2
  | reference A, b, s => AllocTy.view_noNull sys A b s

theorem AllocTy.view_sync (sys : Sys) : ∀ (t : AllocTy) (_ : t.copyable = true) (b : Nat) (cur own : (t.denote sys).St),
    t.view sys b (t.sync sys cur own) = t.view sys b cur
  | null, _, _, _, _ => rfl
  | mallocator, _, _, _, _ => rfl
  | linear _, h, _, _, _ => nomatch h
  | stack _, _, _, _, _ => rfl
  | freelist _ _ A, h, _, _, _ => nomatch h
  | fallback P F, h, b, cur, own => by
    simp only [AllocTy.copyable, Bool.and_eq_true] at h
    show Val.fallback (P.view sys b (P.sync sys cur.1 own.1)) (F.view sys (b + P.size) (F.sync sys cur.2 own.2)) = _
    rw [AllocTy.view_sync sys P h.1, AllocTy.view_sync sys F h.2]; rfl
  | segragator _ P F, h, b, cur, own => by
    simp only [AllocTy.copyable, Bool.and_eq_true] at h
    show Val.segragator (P.view sys b (P.sync sys cur.1 own.1)) (F.view sys (b + P.size) (F.sync sys cur.2 own.2)) = _
    rw [AllocTy.view_sync sys P h.1, AllocTy.view_sync sys F h.2]; rfl
  | cascading _, h, _, _, _ => nomatch h
  | overflow A, h, b, cur, own => congrArg Val.overflow (AllocTy.view_sync sys A h b (cur : Overflow.St _).a (own : Overflow.St _).a)
  | threaded A, h, _, _, _ => nomatch h
  | shared A, _, _, _, _ => rfl
  | reference A, _, _, _, _ => rfl

/-- **C70, copies.** Copies of an allocator object compare equal at all times: `cur` are the fields of the copy that was used last, `own`
and `own'` the fields other copies had when they were used last (see `AllocTy.sync`). -/
theorem C70_copies_equal (sys : Sys) (t : AllocTy) (hc : t.copyable = true) (b : Nat) (cur own own' : (t.denote sys).St) :
    t.equal sys b (t.sync sys cur own) b (t.sync sys cur own') = some true := by
  unfold AllocTy.equal
  rw [t.view_sync sys hc, t.view_sync sys hc]
  exact C29_eq_refl _ (t.view_noNull sys b cur)

/-- **C70, what `==` leaves out.** The counters of `overflow` are not compared, and they do not take part in the hand-over: a block of 16 bytes is
allocated from one object and deallocated through another object, which compares equal. Both objects report that 16 bytes were leaked or
deallocated too often. -/
theorem C70_overflow_false_report : (hdplay (demoSys .direct) ((AllocTy.overflow .mallocator).equal (demoSys .direct)) [4096, 4128]
    [.create 0, .create 1, .use 0 (.allocate 16), .hand 0 0 1, .use 1 (.deallocate 0), .destroy 0, .destroy 1] (demoWorld 64)).test
    (fun objs w' => objs.all (fun o => o.st.isNone) && decide (w'.out = [Msg.leak 16, Msg.leak (-16)])) = true := by decide +kernel

/-- **C70, the comparison is needed.** If a program does not compare and hands a block of one `linear_allocator` to another one, which
deallocates it, a block the client holds is given out a second time. -/
theorem C70_unequal_overlap : (hdplay (A := (AllocTy.linear 64).denote (demoSys .direct)) (demoSys .direct) (fun _ _ _ _ => some true) [4096, 4176]
    [.create 0, .create 1, .use 0 (.allocate 32), .use 1 (.allocate 16), .use 1 (.allocate 16), .hand 0 0 1, .use 1 (.deallocate 0), .use 1 (.allocate 16)]
      (demoWorld 160)).test
    (fun objs _ => decide (objs.map (fun o => o.live.map blk) = [[], [(4176, 16), (4192, 16), (4176, 16)]])) = true := by decide +kernel

/-! ### Examples -/

/-- a type for the example: two pools, the second one takes blocks from `malloc` -/
def demoHdTy : AllocTy := .freelist 0 32 (.overflow .mallocator)

/-- blocks are allocated from one object, handed over, and deallocated through the other one, after the first one was destroyed -/
def demoHdOps : List HdOp :=
  [.create 0, .create 1, .use 0 (.allocate 24), .use 0 (.allocate 8), .use 0 (.write 0 3 7), .hand 0 0 1, .hand 0 0 1, .destroy 0, .use 1 (.deallocate 1)]

example : demoHdTy.WF := by decide
example : HdSane demoHdTy demoHdOps := by
  intro i n h
  simp [demoHdOps] at h
  rcases h with ⟨_, rfl⟩ | ⟨_, rfl⟩ <;> decide
example : Places (demoWorld 96) demoHdTy.size [4096, 4144] :=
  ⟨by
    intro b hb
    simp at hb
    rcases hb with rfl | rfl <;> refine ⟨by decide, by decide, by decide, fun x h1 h2 => ?_⟩ <;>
      exact (demoStorage 96 (by decide)).2.2.2 x (by omega) (by have : demoHdTy.size = 48 := rfl; omega),
   by decide⟩
/-- both blocks are handed over -/
example : ((hdplay (demoSys .direct) (demoHdTy.equal (demoSys .direct)) [4096, 4144]
    [.create 0, .create 1, .use 0 (.allocate 24), .use 0 (.allocate 8), .use 0 (.write 0 3 7), .hand 0 0 1, .hand 0 0 1] (demoWorld 96)).test
    fun objs _ => decide (objs.map (fun o => o.live.map (fun a => a.2.length)) = [[], [24, 8]])) = true := by decide +kernel
/-- after one block was deallocated the free lists differ, and nothing is handed over any more -/
example : ((hdplay (demoSys .direct) (demoHdTy.equal (demoSys .direct)) [4096, 4144]
    [.create 0, .create 1, .use 0 (.allocate 24), .use 0 (.allocate 8), .hand 0 0 1, .use 1 (.deallocate 0), .hand 0 0 1] (demoWorld 96)).test
    fun objs _ => decide (objs.map (fun o => o.live.map (fun a => a.2.length)) = [[24], []])) = true := by decide +kernel

end KTL
