import Verif.Model.Levels
/-
More assertions only turn outcomes into failed assertions: `Tight r' r` for `r'` the outcome with more of them.
-/
namespace Jules

variable {α β γ : Type} {A : Arith} {K K' : Nat → Bool}

/-- The outcome of a build with more assertions. -/
def Tight (r' r : Res β) : Prop := r' = .error .assert ∨ r' = r

theorem Tight.rfl {r : Res β} : Tight r r := .inr (Eq.refl _)

theorem Tight.bind {x' x : Res β} {f' f : β → Res γ} (h : Tight x' x) (hf : ∀ b, Tight (f' b) (f b)) : Tight (x' >>= f') (x >>= f) := by
  rcases h with h | h
  · subst h; exact .inl (Eq.refl _)
  · subst h
    cases x' with
    | error e => exact .inr (Eq.refl _)
    | ok b => exact hf b

theorem Tight.dbg (h : ∀ l, 1 ≤ l → l ≤ 3 → K l = true → K' l = true) (l : Nat) (c : Bool) (h0 : 1 ≤ l := by decide) (hl : l ≤ 3 := by decide) : Tight (dbg (K' l) c) (dbg (K l) c) := by
  have := h l h0 hl
  cases hk : K l <;> cases hk' : K' l <;> cases c <;> simp_all [Jules.dbg, Tight]

theorem Tight.foldlM {f' f : γ → β → Res γ} (hf : ∀ s b, Tight (f' s b) (f s b)) : ∀ (l : List β) (s : γ), Tight (l.foldlM f' s) (l.foldlM f s)
  | [], _ => .rfl
  | b :: l, s => by
    simp only [List.foldlM_cons]
    exact .bind (hf s b) fun s' => Tight.foldlM hf l s'

theorem Tight.mapM {f' f : β → Res γ} (hf : ∀ b, Tight (f' b) (f b)) : ∀ l : List β, Tight (l.mapM f') (l.mapM f)
  | [] => .rfl
  | b :: l => by
    simp only [List.mapM_cons]
    exact .bind (hf b) fun _ => .bind (Tight.mapM hf l) fun _ => .rfl

theorem Tight.eq {r' r : Res β} (h : Tight r' r) (h' : Tight r r') : r' = r := by
  rcases h with h | h
  · rcases h' with h' | h'
    · rw [h, h']
    · exact h'.symm
  · exact h

theorem inNoexcept_id (hA : A.throws = false) (r : Res β) : inNoexcept A r = r := by
  unfold inNoexcept; split <;> simp [hA]

theorem Tight.noexcept (hA : A.throws = false) {r' r : Res β} (h : Tight r' r) : Tight (inNoexcept A r') (inNoexcept A r) := by
  rw [inNoexcept_id hA, inNoexcept_id hA]; exact h

section index
variable (hA : A.throws = false) (hK : ∀ l, 1 ≤ l → l ≤ 3 → K l = true → K' l = true)
include hK

theorem inferStridesL_tight : ∀ (ext : List Nat) (t : Nat), Tight (inferStridesL A K' ext t) (inferStridesL A K ext t)
  | [], _ => .rfl
  | e :: es, t => by
    simp only [inferStridesL]
    exact .bind (.dbg hK _ _) fun _ => .bind (inferStridesL_tight es _) fun _ => .rfl

include hA in
theorem mkL_tight (s : Nat) (ext : List Nat) : Tight (SDesc.mkL A K' s ext) (SDesc.mkL A K s ext) := by
  unfold SDesc.mkL
  split
  · exact .rfl
  · exact .bind (.noexcept hA (inferStridesL_tight hK _ _)) fun _ => .rfl

theorem doSliceL_tight : ∀ (args : List Arg) (s : Nat) (es ts : List Nat), Tight (doSliceL A K' s es ts args) (doSliceL A K s es ts args)
  | [], s, [], [] => by simp only [doSliceL]; exact .rfl
  | .slice a x d :: as, s, e :: es, t :: ts => by
    simp only [doSliceL]
    exact .bind (.dbg hK _ _) fun _ => .bind (.dbg hK _ _) fun _ => .bind (.dbg hK _ _) fun _ => .bind (doSliceL_tight as _ es ts) fun _ => .rfl
  | .idx i :: as, s, e :: es, t :: ts => by
    simp only [doSliceL]
    exact .bind (.dbg hK _ _) fun _ => .bind (doSliceL_tight as _ es ts) fun _ => .rfl
  | .rng _ :: _, _, _ :: _, _ :: _ => by simp only [doSliceL]; exact .rfl
  | [], _, _ :: _, _ => by simp only [doSliceL]; exact .rfl
  | [], _, [], _ :: _ => by simp only [doSliceL]; exact .rfl
  | _ :: _, _, [], _ => by simp only [doSliceL]; exact .rfl
  | _ :: _, _, _ :: _, [] => by simp only [doSliceL]; exact .rfl

theorem defaultSlicingL_tight (d : SDesc) (args : List Arg) : Tight (defaultSlicingL A K' d args) (defaultSlicingL A K d args) :=
  .bind (doSliceL_tight hK _ _ _ _) fun _ => .rfl

theorem doSliceIndL_tight (d : SDesc) : ∀ (as : List Arg) (ix : List Nat) (st : List Nat × List Nat),
    Tight (doSliceIndL A K' d as ix st) (doSliceIndL A K d as ix st)
  | [], ix, (ext, out) => by simp only [doSliceIndL]; exact .rfl
  | .rng l :: as, ix, (ext, out) => by
    simp only [doSliceIndL]
    exact .bind (.dbg hK _ _) fun _ => .foldlM (fun st i => doSliceIndL_tight d as (i :: ix) st) _ _
  | .idx i :: as, ix, (ext, out) => by
    simp only [doSliceIndL]
    exact .bind (.dbg hK _ _) fun _ => doSliceIndL_tight d as _ _
  | .slice a x t :: as, ix, (ext, out) => by
    simp only [doSliceIndL]
    exact .bind (.dbg hK _ _) fun _ => .bind (.dbg hK _ _) fun _ => .bind (.dbg hK _ _) fun _ => .foldlM (fun st i => doSliceIndL_tight d as _ st) _ _

theorem indirectSlicingL_tight (d : SDesc) (args : List Arg) : Tight (indirectSlicingL A K' d args) (indirectSlicingL A K d args) := by
  unfold indirectSlicingL
  split
  · exact .rfl
  · exact doSliceIndL_tight hK _ _ _ _

include hA in
theorem mkVecL_tight (ext idx : List Nat) : Tight (Mapper.mkVecL A K' ext idx) (Mapper.mkVecL A K ext idx) :=
  .bind (mkL_tight hA hK _ _) fun _ => .bind (.dbg hK _ _) fun _ => .rfl

theorem mapL_tight (m : Mapper) (i : Nat) : Tight (m.mapL K' i) (m.mapL K i) := by
  unfold Mapper.mapL
  cases m
  · exact .rfl
  · exact .bind (.dbg hK _ _) fun _ => .rfl

theorem mapAllL_tight (m : Mapper) (l : List Nat) : Tight (m.mapAllL K' l) (m.mapAllL K l) := .mapM (mapL_tight hK m) l

include hA in
theorem dropFirstL_tight (m : Mapper) (i : Nat) : Tight (m.dropFirstL A K' i) (m.dropFirstL A K i) := by
  unfold Mapper.dropFirstL
  cases m
  · exact .rfl
  · exact .noexcept hA (.bind .rfl fun _ => .bind .rfl fun _ => .bind (mapAllL_tight hK _ _) fun _ => mkVecL_tight hA hK _ _)

include hA in
theorem arraySliceL_tight (off : Nat) (m : Mapper) (args : List Arg) : Tight (arraySliceL A K' off m args) (arraySliceL A K off m args) := by
  unfold arraySliceL
  split
  · refine .bind (defaultSlicingL_tight hK _ _) fun _ => ?_
    cases m
    · exact .rfl
    · exact .bind .rfl fun _ => .bind (mapAllL_tight hK _ _) fun _ => .bind (mkVecL_tight hA hK _ _) fun _ => .rfl
  · refine .bind (indirectSlicingL_tight hK _ _) fun _ => ?_
    cases m
    · exact .bind (mkVecL_tight hA hK _ _) fun _ => .rfl
    · exact .bind (mapAllL_tight hK _ _) fun _ => .bind (mkVecL_tight hA hK _ _) fun _ => .rfl

include hA in
theorem arrayAtIdxL_tight (off : Nat) (m : Mapper) (i : Nat) : Tight (arrayAtIdxL A K' off m i) (arrayAtIdxL A K off m i) := by
  unfold arrayAtIdxL
  refine .bind (.dbg hK _ _) fun _ => ?_
  split
  · exact .bind (mapL_tight hK _ _) fun _ => .rfl
  · exact .bind (dropFirstL_tight hA hK _ _) fun _ => .rfl

include hA in
theorem arrayAtArgL_tight (off : Nat) (m : Mapper) (a : Arg) : Tight (arrayAtArgL A K' off m a) (arrayAtArgL A K off m a) := by
  unfold arrayAtArgL
  split
  · exact arraySliceL_tight hA hK _ _ _
  · exact .rfl

include hA in
theorem srefIndexL_tight (off : Nat) (m : Mapper) (ix : Ix) : Tight (srefIndexL A K' off m ix) (srefIndexL A K off m ix) := by
  unfold srefIndexL
  cases ix
  · exact arrayAtIdxL_tight hA hK _ _ _
  all_goals first
    | exact .rfl
    | exact arrayAtArgL_tight hA hK _ _ _
    | exact .bind .rfl fun _ => arrayAtArgL_tight hA hK _ _ _

include hA in
theorem proxyAtL_tight (off : Nat) (m : Mapper) (args : List Arg) (a : Arg) : Tight (proxyAtL A K' off m args a) (proxyAtL A K off m args a) := by
  unfold proxyAtL
  split
  · exact arraySliceL_tight hA hK _ _ _
  · exact .rfl

include hA in
theorem proxyIndexL_tight (off : Nat) (m : Mapper) (args : List Arg) (ix : Ix) : Tight (proxyIndexL A K' off m args ix) (proxyIndexL A K off m args ix) := by
  unfold proxyIndexL
  cases ix
  all_goals first
    | exact proxyAtL_tight hA hK _ _ _ _
    | exact .bind .rfl fun _ => proxyAtL_tight hA hK _ _ _ _

include hA in
theorem everyFallbackL_tight (off : Nat) (ext : List Nat) (M : Nat) (ix : Ix) : Tight (everyFallbackL A K' off ext M ix) (everyFallbackL A K off ext M ix) :=
  .bind (mkL_tight hA hK _ _) fun _ => proxyIndexL_tight hA hK _ _ _ _

include hA in
theorem everyIndexL_tight (off : Nat) (ext : List Nat) (M : Nat) (ix : Ix) : Tight (everyIndexL A K' off ext M ix) (everyIndexL A K off ext M ix) := by
  cases ix
  case «at» i =>
    simp only [everyIndexL]
    split
    · exact .bind (.dbg hK _ _) fun _ => .rfl
    · exact .rfl
  case slice s x =>
    simp only [everyIndexL]
    split
    · exact .bind (.dbg hK _ _) fun _ => .rfl
    · exact everyFallbackL_tight hA hK _ _ _ _
  case boundedStrided s mx t =>
    simp only [everyIndexL]
    exact .bind .rfl fun _ => everyFallbackL_tight hA hK _ _ _ _
  case every => exact .rfl
  all_goals
    simp only [everyIndexL]
    exact everyFallbackL_tight hA hK _ _ _ _

include hA in
theorem arrayAtArgCL_tight (off : Nat) (ext : List Nat) (a : Arg) : Tight (arrayAtArgCL A K' off ext a) (arrayAtArgCL A K off ext a) :=
  .bind (mkL_tight hA hK _ _) fun _ => arrayAtArgL_tight hA hK _ _ _

include hA in
theorem arrayAtSliceCL_tight (off : Nat) (ext : List Nat) (s x : Nat) : Tight (arrayAtSliceCL A K' off ext s x) (arrayAtSliceCL A K off ext s x) := by
  unfold arrayAtSliceCL
  split
  · exact .bind (.dbg hK _ _) fun _ => .rfl
  · exact .bind (mkL_tight hA hK _ _) fun _ => arrayAtArgL_tight hA hK _ _ _

include hA in
theorem crefIndexL_tight (off : Nat) (ext : List Nat) (ix : Ix) : Tight (crefIndexL A K' off ext ix) (crefIndexL A K off ext ix) := by
  cases ix
  case «at» i =>
    simp only [crefIndexL]
    refine .bind (.dbg hK _ _) fun _ => ?_
    split
    · exact .rfl
    · exact .bind (mkL_tight hA hK _ _) fun _ => .rfl
  case every => exact .rfl
  case boundedStrided s mx t =>
    simp only [crefIndexL]
    exact .bind .rfl fun _ => arrayAtArgCL_tight hA hK _ _ _
  case rng l =>
    simp only [crefIndexL]
    split
    · exact .bind (.dbg hK _ _) fun _ => .bind (mkVecL_tight hA hK _ _) fun _ => .rfl
    · exact arrayAtArgCL_tight hA hK _ _ _
  all_goals
    simp only [crefIndexL]
    first
    | exact arrayAtSliceCL_tight hA hK _ _ _ _
    | exact arrayAtArgCL_tight hA hK _ _ _

include hA in
theorem indexL_tight (o : Obj) (ix : Ix) : Tight (o.indexL A K' ix) (o.indexL A K ix) := by
  cases o
  · exact .rfl
  · exact crefIndexL_tight hA hK _ _ _
  · exact srefIndexL_tight hA hK _ _ _
  · exact proxyIndexL_tight hA hK _ _ _ _
  · exact everyIndexL_tight hA hK _ _ _ _

include hA in
theorem runL_tight (o : Obj) (h : List Ix) : Tight (o.runL A K' h) (o.runL A K h) := .foldlM (indexL_tight hA hK) _ _

include hA in
theorem windexL_tight (w : World α) (x : Nat) (h : List Ix) : Tight (w.indexL A K' x h) (w.indexL A K x h) :=
  .bind .rfl fun _ => runL_tight hA hK _ _

include hA in
theorem scL_tight (w : World α) (s : Sc α) : Tight (s.evalL A K' w) (s.evalL A K w) := by
  cases s
  · exact .rfl
  · exact .bind (windexL_tight hA hK _ _ _) fun _ => .rfl

theorem zipL_tight (f : α → α → Option α) (x y : FSrc α) : Tight (x.zipL K' f y) (x.zipL K f y) := by
  unfold FSrc.zipL
  split
  · exact .rfl
  · exact .bind (.dbg hK _ _) fun _ => .rfl

include hA in
theorem fexL_tight (w : World α) : ∀ e : FEx α, Tight (e.evalL A K' w) (e.evalL A K w)
  | .arr x h => by simp only [FEx.evalL]; exact .bind (windexL_tight hA hK _ _ _) fun _ => .rfl
  | .un f e => by simp only [FEx.evalL]; exact .bind (fexL_tight w e) fun _ => .rfl
  | .bin f a b => by
    simp only [FEx.evalL]
    exact .bind (fexL_tight w a) fun _ => .bind (fexL_tight w b) fun _ => zipL_tight hK _ _ _
  | .scl f s e => by
    simp only [FEx.evalL]
    exact .bind (scL_tight hA hK w s) fun _ => .bind .rfl fun _ => .bind (fexL_tight w e) fun _ => .rfl
  | .scr f e s => by
    simp only [FEx.evalL]
    exact .bind (fexL_tight w e) fun _ => .bind (scL_tight hA hK w s) fun _ => .rfl

end index

/-- As `Tight`, for computations on the storage. -/
def TightB (r' r : BOut α β) : Prop := r' = .fail .assert ∨ r' = r

theorem TightB.rfl {r : BOut α β} : TightB r r := .inr (Eq.refl _)

theorem TightB.bind {x' x : BM α β} {f' f : β → BM α γ} {p : Pool α} (h : TightB (x' p) (x p)) (hf : ∀ b q, TightB (f' b q) (f b q)) :
    TightB ((x' >>= f') p) ((x >>= f) p) := by
  show TightB (BM.bind x' f' p) (BM.bind x f p)
  unfold BM.bind
  rcases h with h | h
  · rw [h]; exact .inl (Eq.refl _)
  · rw [h]
    cases x p with
    | ok b q => exact hf b q
    | exn q => exact .rfl
    | fail f => exact .rfl

theorem TightB.finally {x' x : BM α β} {c : BM α Unit} {p : Pool α} (h : TightB (x' p) (x p)) : TightB (BM.finally x' c p) (BM.finally x c p) := by
  unfold BM.finally
  rcases h with h | h
  · rw [h]; exact .inl (Eq.refl _)
  · rw [h]; exact .rfl

theorem TightB.reads {g' g : Mem α → Res β} {p : Pool α} (h : Tight (g' p.mem) (g p.mem)) : TightB (BM.reads g' p) (BM.reads g p) := by
  unfold BM.reads
  rcases h with h | h
  · rw [h]; exact .inl (Eq.refl _)
  · rw [h]; exact .rfl

section world
variable (hA : A.throws = false) (hK : ∀ l, 1 ≤ l → l ≤ 3 → K l = true → K' l = true)
include hK

theorem assignBL_tight (S : Nat → Bool) (d : Obj) (src : FSrc α) (p : Pool α) : TightB (assignBL A K' S d src p) (assignBL A K S d src p) := by
  unfold assignBL
  cases d.dims with
  | none => exact .rfl
  | some dd =>
    by_cases h : src.dims.length ≠ dd.length
    · simp only [if_pos h]; exact .rfl
    · simp only [if_neg h]
      exact .bind (.reads (.dbg hK _ _)) fun _ _ => .bind .rfl fun _ _ => .bind .rfl fun _ _ => .reads (.dbg hK _ _)

theorem inPlaceBL_tight (S : Nat → Bool) (d : Obj) (op : α → α → α × Bool) (src : FSrc α) (p : Pool α) :
    TightB (inPlaceBL A K' S d op src p) (inPlaceBL A K S d op src p) := by
  unfold inPlaceBL
  cases d.dims with
  | none => exact .rfl
  | some dd =>
    by_cases h : dd.length ≠ src.dims.length
    · simp only [if_pos h]; exact .rfl
    · simp only [if_neg h]
      exact .bind (.reads (.dbg hK _ _)) fun _ _ => .rfl

theorem overlapBL_tight (S : Nat → Bool) (nx : Bool) (alloc : Nat → List (Nat × Nat) → Nat → Option Nat) (d : Obj) (src : FSrc α) (p : Pool α) :
    TightB (overlapBL A K' S nx alloc d src p) (overlapBL A K S nx alloc d src p) :=
  .bind .rfl fun _ _ => .finally (.bind .rfl fun _ _ => assignBL_tight hK _ _ _ _)

omit hK in
theorem wrote_tight {W : BWorld α} {r' r : BOut α Unit} (h : TightB r' r) : Tight (W.wrote r') (W.wrote r) := by
  rcases h with h | h
  · rw [h]; exact .inl (Eq.refl _)
  · rw [h]; exact .rfl

variable {nx : Bool} {S : Nat → Bool} {alloc : Nat → List (Nat × Nat) → Nat → Option Nat}

include hA in
theorem fstepL_tight (W : BWorld α) (s : FStmt α) : Tight (W.fstepL A K' nx S alloc s) (W.fstepL A K nx S alloc s) := by
  have hx := @windexL_tight α A K K' hA hK
  have he := @fexL_tight α A K K' hA hK
  have hs := @scL_tight α A K K' hA hK
  cases s
  case plain => exact .rfl
  case makeFrom => exact .rfl
  case make => exact .bind .rfl fun _ => .bind .rfl fun _ => .bind (he _ _) fun _ => .rfl
  case assign => exact .bind .rfl fun _ => .bind .rfl fun _ => .bind (hx _ _ _) fun _ => .bind (he _ _) fun _ => wrote_tight (assignBL_tight hK _ _ _ _)
  case inPlace => exact .bind .rfl fun _ => .bind (hx _ _ _) fun _ => .bind (he _ _) fun _ => wrote_tight (inPlaceBL_tight hK _ _ _ _ _)
  case inPlaceScalar => exact .bind .rfl fun _ => .bind (hx _ _ _) fun _ => .bind (hs _ _) fun _ => .rfl
  case apply => exact .bind .rfl fun _ => .bind (hx _ _ _) fun _ => .rfl
  case overlap =>
    exact .bind .rfl fun _ => .bind .rfl fun _ => .bind (hx _ _ _) fun _ => .bind (he _ _) fun _ => wrote_tight (overlapBL_tight hK _ _ _ _ _ _)
  case overlapWhole => exact .bind .rfl fun _ => .bind .rfl fun _ => .bind (he _ _) fun _ => .rfl
  case set x e =>
    have hset : ∀ e' : FEx α, Tight (do
        let o ← W.own x
        W.usable A e'.uses
        let src ← e'.evalL A K' (W.flat A)
        sameRank o src.dims
        W.stored x (setB A S nx alloc o src W.pool)) (do
        let o ← W.own x
        W.usable A e'.uses
        let src ← e'.evalL A K (W.flat A)
        sameRank o src.dims
        W.stored x (setB A S nx alloc o src W.pool)) := fun e' => .bind .rfl fun _ => .bind .rfl fun _ => .bind (he _ _) fun _ => .rfl
    cases e
    case arr y h =>
      cases h with
      | nil =>
        simp only [BWorld.fstepL]
        refine .bind .rfl fun _ => ?_
        split
        · exact .rfl
        · exact .bind .rfl fun _ => .bind (he _ _) fun _ => .rfl
      | cons i h => simp only [BWorld.fstepL]; exact hset _
    all_goals (simp only [BWorld.fstepL]; exact hset _)

include hA in
theorem mstepL_tight (W : BWorld α) (s : MStmt α) : Tight (W.mstepL A K' nx S alloc s) (W.mstepL A K nx S alloc s) := by
  have hx := @windexL_tight α A K K' hA hK
  have hs := @scL_tight α A K K' hA hK
  have hf := @fstepL_tight α A K K' hA hK nx S alloc
  cases s
  case declare => exact .rfl
  case moveMake => exact .rfl
  case old s =>
    cases s
    case makeFill => exact .bind .rfl fun _ => .bind .rfl fun _ => .bind .rfl fun _ => .bind (hs _ _) fun _ => .rfl
    case drop => exact .rfl
    case fill => exact .bind .rfl fun _ => .bind .rfl fun _ => .bind (hx _ _ _) fun _ => .bind (hs _ _) fun _ => .rfl
    case moveAssign => exact .bind (.dbg hK _ _) fun _ => .rfl
    all_goals (simp only [BWorld.mstepL]; exact hf _ _)

include hA in
theorem stepL_tight (W : BWorld α) (s : XStmt α) : Tight (W.stepL A K' nx S alloc s) (W.stepL A K nx S alloc s) := by
  unfold BWorld.stepL
  split
  · exact .rfl
  · exact .bind (mstepL_tight hA hK _ _) fun _ => .rfl
  · exact .bind (fstepL_tight hA hK _ _) fun _ => .rfl

include hA in
theorem leaveL_tight (W : BWorld α) : Tight (W.leaveL A K' nx S alloc) (W.leaveL A K nx S alloc) := by
  unfold BWorld.leaveL
  split
  · exact .rfl
  · exact .bind (.foldlM (fun _ _ => .bind (mstepL_tight hA hK _ _) fun _ => .rfl) _ _) fun _ => .rfl

include hA in
theorem giveL_tight (W : BWorld α) (x y : Nat) : Tight (W.giveL A K' nx S alloc x y) (W.giveL A K nx S alloc x y) :=
  .bind .rfl fun _ => .bind (mstepL_tight hA hK _ _) fun _ => .rfl

include hA in
theorem execL_tight : ∀ {β : Type} (p : Body α β) (W : BWorld α), Tight (W.execL A K' nx S alloc p) (W.execL A K nx S alloc p) := by
  intro β p
  induction p with
  | ret b => intro W; exact .rfl
  | throw => intro W; exact .rfl
  | exec s k ih =>
    intro W
    simp only [BWorld.execL]
    refine .bind (stepL_tight hA hK _ _) fun r => ?_
    split
    · exact .rfl
    · exact ih _
  | read s k ih =>
    intro W
    simp only [BWorld.execL]
    refine .bind .rfl fun _ => .bind (scL_tight hA hK _ _) fun _ => ?_
    split
    · exact ih _ _
    · exact .rfl
    · exact .rfl
  | elements e k ih =>
    intro W
    simp only [BWorld.execL]
    refine .bind .rfl fun _ => .bind (fexL_tight hA hK _ _) fun _ => ?_
    split
    · exact ih _ _ _
    · exact .rfl
    · exact .rfl
  | block body k ihb ihk =>
    intro W
    simp only [BWorld.execL]
    refine .bind (ihb _) fun r => .bind (leaveL_tight hA hK _) fun _ => ?_
    split
    · exact .rfl
    · exact ihk _ _
  | call x y body k ihb ihk =>
    intro W
    simp only [BWorld.execL]
    refine .bind (ihb _) fun r => ?_
    split
    · exact .bind (leaveL_tight hA hK _) fun _ => .rfl
    · exact .bind (giveL_tight hA hK _ _ _) fun _ => .bind (leaveL_tight hA hK _) fun _ => ihk _ _
  | attempt body handler k ihb ihh ihk =>
    intro W
    simp only [BWorld.execL]
    refine .bind (ihb _) fun r => .bind (leaveL_tight hA hK _) fun _ => ?_
    split
    · exact ihk _ _
    · refine .bind (ihh _) fun r' => .bind (leaveL_tight hA hK _) fun _ => ?_
      split
      · exact .rfl
      · exact ihk _ _

include hA in
theorem mainL_tight (p : Body α β) : Tight (BWorld.mainL A K' nx S alloc p) (BWorld.mainL A K nx S alloc p) := execL_tight hA hK _ _

end world

end Jules
