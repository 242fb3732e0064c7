import Verif.Lemmas.Levels
/-
With all assertions, or with none, the functions of Model/Levels.lean are those of the other models.
-/
namespace Jules

variable {α β : Type} {A : Arith} {b : Bool}

theorem inferStridesL_eq : ∀ (ext : List Nat) (t : Nat), inferStridesL A (fun _ => b) ext t = inferStrides A b ext t
  | [], _ => rfl
  | e :: es, t => by simp only [inferStridesL, inferStrides, inferStridesL_eq es]

theorem mkL_eq (s : Nat) (ext : List Nat) : SDesc.mkL A (fun _ => b) s ext = SDesc.mk' A b s ext := by
  unfold SDesc.mkL SDesc.mk'
  split <;> simp only [inferStridesL_eq]

theorem doSliceL_eq : ∀ (args : List Arg) (s : Nat) (es ts : List Nat), doSliceL A (fun _ => b) s es ts args = doSlice A b s es ts args
  | [], s, [], [] => by simp only [doSliceL, doSlice]
  | .slice a x d :: as, s, e :: es, t :: ts => by simp only [doSliceL, doSlice, doSliceL_eq as]
  | .idx i :: as, s, e :: es, t :: ts => by simp only [doSliceL, doSlice, doSliceL_eq as]
  | .rng _ :: _, _, _ :: _, _ :: _ => by simp only [doSliceL, doSlice]
  | [], _, _ :: _, _ => by simp only [doSliceL, doSlice]
  | [], _, [], _ :: _ => by simp only [doSliceL, doSlice]
  | _ :: _, _, [], _ => by simp only [doSliceL, doSlice]
  | _ :: _, _, _ :: _, [] => by simp only [doSliceL, doSlice]

theorem doSliceIndL_eq (d : SDesc) : ∀ (as : List Arg) (ix : List Nat) (st : List Nat × List Nat), doSliceIndL A (fun _ => b) d as ix st = doSliceInd A b d as ix st
  | [], ix, (ext, out) => by simp only [doSliceIndL, doSliceInd]
  | .rng l :: as, ix, (ext, out) => by simp only [doSliceIndL, doSliceInd, doSliceIndL_eq d as]
  | .idx i :: as, ix, (ext, out) => by simp only [doSliceIndL, doSliceInd, doSliceIndL_eq d as]
  | .slice a x t :: as, ix, (ext, out) => by simp only [doSliceIndL, doSliceInd, doSliceIndL_eq d as]

theorem mkVecL_eq (ext idx : List Nat) : Mapper.mkVecL A (fun _ => b) ext idx = Mapper.mkVec A b ext idx := by
  simp only [Mapper.mkVecL, Mapper.mkVec, mkL_eq]

theorem mapAllL_eq (m : Mapper) (l : List Nat) : m.mapAllL (fun _ => b) l = m.mapAll b l := rfl

theorem dropFirstL_eq (m : Mapper) (i : Nat) : m.dropFirstL A (fun _ => b) i = m.dropFirst A b i := by
  cases m <;> simp only [Mapper.dropFirstL, Mapper.dropFirst, mkVecL_eq, mapAllL_eq]

theorem arraySliceL_eq (off : Nat) (m : Mapper) (args : List Arg) : arraySliceL A (fun _ => b) off m args = arraySlice A b off m args := by
  simp only [arraySliceL, arraySlice, defaultSlicingL, defaultSlicing, indirectSlicingL, indirectSlicing, mkVecL_eq, mapAllL_eq, doSliceL_eq, doSliceIndL_eq]
  rfl

theorem arrayAtIdxL_eq (off : Nat) (m : Mapper) (i : Nat) : arrayAtIdxL A (fun _ => b) off m i = arrayAtIdx A b off m i := by
  simp only [arrayAtIdxL, arrayAtIdx, dropFirstL_eq]; rfl

theorem arrayAtArgL_eq (off : Nat) (m : Mapper) (a : Arg) : arrayAtArgL A (fun _ => b) off m a = arrayAtArg A b off m a := by
  simp only [arrayAtArgL, arrayAtArg, arraySliceL_eq]

theorem srefIndexL_eq (off : Nat) (m : Mapper) (ix : Ix) : srefIndexL A (fun _ => b) off m ix = srefIndex A b off m ix := by
  cases ix <;> simp only [srefIndexL, srefIndex, arrayAtIdxL_eq, arrayAtArgL_eq]

theorem proxyAtL_eq (off : Nat) (m : Mapper) (args : List Arg) (a : Arg) : proxyAtL A (fun _ => b) off m args a = proxyAt A b off m args a := by
  simp only [proxyAtL, proxyAt, arraySliceL_eq]

theorem proxyIndexL_eq (off : Nat) (m : Mapper) (args : List Arg) (ix : Ix) : proxyIndexL A (fun _ => b) off m args ix = proxyIndex A b off m args ix := by
  cases ix <;> simp only [proxyIndexL, proxyIndex, proxyAtL_eq]

theorem everyFallbackL_eq (off : Nat) (ext : List Nat) (M : Nat) (ix : Ix) : everyFallbackL A (fun _ => b) off ext M ix = everyFallback A b off ext M ix := by
  simp only [everyFallbackL, everyFallback, mkL_eq, proxyIndexL_eq]

theorem everyIndexL_eq (off : Nat) (ext : List Nat) (M : Nat) (ix : Ix) : everyIndexL A (fun _ => b) off ext M ix = everyIndex A b off ext M ix := by
  cases ix <;> simp only [everyIndexL, everyIndex, everyFallbackL_eq]

theorem crefIndexL_eq (off : Nat) (ext : List Nat) (ix : Ix) : crefIndexL A (fun _ => b) off ext ix = crefIndex A b off ext ix := by
  have h2 : ∀ a, arrayAtArgCL A (fun _ => b) off ext a = arrayAtArgC A b off ext a := by
    intro a; simp only [arrayAtArgCL, arrayAtArgC, mkL_eq, arrayAtArgL_eq]
  have h1 : ∀ s x, arrayAtSliceCL A (fun _ => b) off ext s x = arrayAtSliceC A b off ext s x := by
    intro s x
    unfold arrayAtSliceCL arrayAtSliceC
    split <;> simp only [mkL_eq, arrayAtArgL_eq]
  cases ix <;> simp only [crefIndexL, crefIndex, h1, h2, mkL_eq, mkVecL_eq]

theorem indexL_eq (o : Obj) (ix : Ix) : o.indexL A (fun _ => b) ix = o.index A b ix := by
  cases o <;> simp only [Obj.indexL, Obj.index, crefIndexL_eq, srefIndexL_eq, proxyIndexL_eq, everyIndexL_eq]

theorem windexL_eq (w : World α) (x : Nat) (h : List Ix) : w.indexL A (fun _ => b) x h = w.index A b x h := by
  have : Obj.indexL A (fun _ => b) = Obj.index A b := by funext o ix; exact indexL_eq o ix
  simp only [World.indexL, World.index, Obj.runL, Obj.run, this]

theorem scL_eq (w : World α) (s : Sc α) : s.evalL A (fun _ => b) w = s.eval A b w := by
  cases s <;> simp only [Sc.evalL, Sc.eval, windexL_eq] <;> rfl

theorem zipL_eq (f : α → α → Option α) (x y : FSrc α) : x.zipL (fun _ => b) f y = x.zip b f y := rfl

theorem fexL_eq (w : World α) : ∀ e : FEx α, e.evalL A (fun _ => b) w = e.eval A b w
  | .arr x h => by simp only [FEx.evalL, FEx.eval, windexL_eq]
  | .un f e => by simp only [FEx.evalL, FEx.eval, fexL_eq w e]
  | .bin f a c => by simp only [FEx.evalL, FEx.eval, fexL_eq w a, fexL_eq w c, zipL_eq]
  | .scl f s e => by simp only [FEx.evalL, FEx.eval, fexL_eq w e, scL_eq]
  | .scr f e s => by simp only [FEx.evalL, FEx.eval, fexL_eq w e, scL_eq]

theorem assignBL_eq (S : Nat → Bool) (d : Obj) (src : FSrc α) : assignBL A (fun _ => b) S d src = assignB A b S d src := rfl
theorem inPlaceBL_eq (S : Nat → Bool) (d : Obj) (op : α → α → α × Bool) (src : FSrc α) : inPlaceBL A (fun _ => b) S d op src = inPlaceB A b S d op src := rfl

variable {nx : Bool} {S : Nat → Bool} {alloc : Nat → List (Nat × Nat) → Nat → Option Nat}

theorem overlapBL_eq (d : Obj) (src : FSrc α) : overlapBL A (fun _ => b) S nx alloc d src = overlapB A b S nx alloc d src := rfl

theorem fstepL_eq (W : BWorld α) (s : FStmt α) : W.fstepL A (fun _ => b) nx S alloc s = W.fstep A b nx S alloc s := by
  cases s
  case set x e =>
    cases e
    case arr y h => cases h <;> simp only [BWorld.fstepL, BWorld.fstep, fexL_eq]
    all_goals simp only [BWorld.fstepL, BWorld.fstep, fexL_eq]
  all_goals simp only [BWorld.fstepL, BWorld.fstep, windexL_eq, fexL_eq, scL_eq, assignBL_eq, inPlaceBL_eq, overlapBL_eq]

theorem mstepL_eq (W : BWorld α) (s : MStmt α) : W.mstepL A (fun _ => b) nx S alloc s = W.mstep A b nx S alloc s := by
  cases s
  case old s => cases s <;> simp only [BWorld.mstepL, BWorld.mstep, windexL_eq, scL_eq, fstepL_eq]
  all_goals simp only [BWorld.mstepL, BWorld.mstep]

theorem stepL_eq (W : BWorld α) (s : XStmt α) : W.stepL A (fun _ => b) nx S alloc s = W.step A b nx S alloc s := by
  unfold BWorld.stepL BWorld.step
  split <;> simp only [mstepL_eq, fstepL_eq]

theorem leaveL_eq (W : BWorld α) : W.leaveL A (fun _ => b) nx S alloc = W.leave A b nx S alloc := by
  simp only [BWorld.leaveL, BWorld.leave, mstepL_eq]; rfl

theorem giveL_eq (W : BWorld α) (x y : Nat) : W.giveL A (fun _ => b) nx S alloc x y = W.give A b nx S alloc x y := by
  simp only [BWorld.giveL, BWorld.give, mstepL_eq]

theorem execL_eq {β : Type} (p : Body α β) : ∀ W : BWorld α, W.execL A (fun _ => b) nx S alloc p = W.exec A b nx S alloc p := by
  induction p with
  | ret v => intro W; rfl
  | throw => intro W; rfl
  | exec s k ih => intro W; simp only [BWorld.execL, BWorld.exec, stepL_eq, ih]
  | read s k ih => intro W; simp only [BWorld.execL, BWorld.exec, scL_eq, ih]; rfl
  | elements e k ih => intro W; simp only [BWorld.execL, BWorld.exec, fexL_eq, ih]; rfl
  | block body k ihb ihk => intro W; simp only [BWorld.execL, BWorld.exec, leaveL_eq, ihb, ihk]; rfl
  | call x y body k ihb ihk => intro W; simp only [BWorld.execL, BWorld.exec, leaveL_eq, giveL_eq, ihb, ihk]; rfl
  | attempt body handler k ihb ihh ihk => intro W; simp only [BWorld.execL, BWorld.exec, leaveL_eq, ihb, ihh, ihk]; rfl

/-- From level 3 on all assertions are there. -/
theorem execL_full (hA : A.throws = false) {K : Nat → Bool} (hK : ∀ l, 1 ≤ l → l ≤ 3 → K l = true) {β : Type} (p : Body α β) (W : BWorld α) :
    W.execL A K nx S alloc p = W.exec A true nx S alloc p := by
  rw [← execL_eq (b := true)]
  exact (execL_tight hA (fun l h0 hl _ => hK l h0 hl) p W).eq (execL_tight hA (fun _ _ _ _ => rfl) p W)

/-- At level 0 there are none. -/
theorem execL_none (hA : A.throws = false) {K : Nat → Bool} (hK : ∀ l, 1 ≤ l → l ≤ 3 → K l = false) {β : Type} (p : Body α β) (W : BWorld α) :
    W.execL A K nx S alloc p = W.exec A false nx S alloc p := by
  rw [← execL_eq (b := false)]
  refine (execL_tight hA (fun l h0 hl h => ?_) p W).eq (execL_tight hA (fun l h0 hl h => ?_) p W)
  · cases h
  · rw [hK l h0 hl] at h; cases h

end Jules
