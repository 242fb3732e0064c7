import Verif.Lemmas.BlockProgs64
/-
Lemmas for C88: modest index expressions fit, whatever the extents are.
-/
namespace Jules
open Spec

theorem modest_nodup {d : Nat} {ix : Ix} (h : ModestIx ix) : (sel d ix).Nodup := by
  cases ix with
  | «at» i => simp [sel]
  | slice s x => exact List.nodup_range.map fun a b hab => by simpa using hab
  | strided s x t =>
    refine List.nodup_range.map fun a b hab => ?_
    have ht : 0 < t := h.1
    exact Nat.eq_of_mul_eq_mul_right ht (by simpa using hab)
  | every => exact List.nodup_range
  | bounded s m => exact ((List.nodup_range.filter _).sublist (List.take_sublist _ _))
  | boundedStrided s m t => exact ((List.nodup_range.filter _).sublist (List.take_sublist _ _))
  | rng l => exact h.elim

theorem length_le_of_lt {l : List Nat} {e : Nat} (hn : l.Nodup) (h : ∀ i ∈ l, i < e) : l.length ≤ e := by
  have := (List.subperm_of_subset hn (fun i hi => List.mem_range.2 (h i hi) : l ⊆ List.range e)).length_le
  simpa using this

theorem modest_fits {d : Nat} {ix : Ix} (h : ModestIx ix) : IxFits d ix := by
  cases ix with
  | «at» i => trivial
  | slice s x => exact h
  | strided s x t => exact ⟨h.2.1, fun hx => by rw [h.2.2 hx]; exact Nat.le_max_left _ _⟩
  | every => trivial
  | bounded s m => exact h
  | boundedStrided s m t => exact ⟨h.1, fun _ => by rw [h.2]; exact Nat.le_max_left _ _⟩
  | rng l => trivial

/-- No element is selected twice so far, and the view is small. -/
def Mod (n : Nat) : AObj → Prop
  | .view v => prod v.ext ≤ n
  | .part v sels => prod v.ext ≤ n ∧ ∀ l ∈ sels, l.Nodup

theorem prod_inside : ∀ {sels : List (List Nat)} {ext : List Nat}, sels.length = ext.length → (∀ l ∈ sels, l.Nodup) → selsInside ext sels →
    prod (sels.map List.length) ≤ prod ext
  | [], [], _, _, _ => Nat.le_refl _
  | l :: sels, e :: ext, hl, hn, hi => by
    refine Nat.mul_le_mul (length_le_of_lt (hn l (by simp)) (hi 0 l e rfl rfl)) (prod_inside (by simpa using hl) (fun l hl => hn l (by simp [hl])) ?_)
    intro k l' e' h1 h2
    exact hi (k + 1) l' e' h1 h2
  | [], _ :: _, h, _, _ => by simp at h
  | _ :: _, [], h, _, _ => by simp at h

theorem mod_close {n : Nat} {v : AView} {sels : List (List Nat)} (hp : prod v.ext ≤ n) (hn : ∀ l ∈ sels, l.Nodup)
    (hi : sels.length = v.ext.length → selsInside v.ext sels) : Mod n (close v sels) ∧ SizeAtMost n (close v sels) := by
  unfold close
  split
  · next hl =>
    have : prod (restrict v sels).ext ≤ n := Nat.le_trans (prod_inside hl hn (hi hl)) hp
    exact ⟨this, this⟩
  · exact ⟨⟨hp, hn⟩, trivial⟩

theorem mod_step {n : Nat} {a : AObj} {ix : Ix} (h : Mod n a) (hm : ModestIx ix) (ha : Admissible a ix) : Mod n (astep a ix) ∧ SizeAtMost n (astep a ix) := by
  cases a with
  | view v =>
    have h : prod v.ext ≤ n := h
    by_cases hx : ∃ i, ix = .at i
    · obtain ⟨i, rfl⟩ := hx
      have ha : i < v.ext.headD 0 := ha
      have : prod v.ext.tail ≤ n := by
        cases he : v.ext with
        | nil => rw [he] at ha; simp at ha
        | cons x es =>
          rw [he] at h ha
          exact Nat.le_trans (Nat.le_mul_of_pos_left _ (by simp at ha; omega)) h
      exact ⟨this, this⟩
    · have hx : ∀ i, ix ≠ .at i := fun i hi => hx ⟨i, hi⟩
      rw [astep_view_notAt hx]
      refine mod_close h (by simpa using modest_nodup hm) fun hl => ?_
      have : v.ext.length = 1 := by simpa using hl.symm
      cases ix with
      | «at» i => exact (hx i rfl).elim
      | slice s x => exact ha this
      | strided s x t => exact ha this
      | every => exact ha this
      | bounded s m => exact ha this
      | boundedStrided s m t => exact ha this
      | rng l => exact ha this
  | part v sels =>
    refine mod_close h.1 ?_ fun hl => ha (by simpa using hl)
    intro l hl
    rcases List.mem_append.1 hl with hl | hl
    · exact h.2 l hl
    · rw [List.mem_singleton.1 hl]; exact modest_nodup hm

theorem modest_all {n : Nat} : ∀ {h : List Ix} {a : AObj}, Mod n a → ModestChain h → FitsAll n a h
  | [], _, _, _ => trivial
  | ix :: h, a, hm, hc => by
    refine ⟨modest_fits (hc ix (by simp)), fun ha => ?_⟩
    obtain ⟨h1, h2⟩ := mod_step hm (hc ix (by simp)) ha
    exact ⟨h2, modest_all h1 fun ix' h' => hc ix' (by simp [h'])⟩

theorem modest_chain {E : Exts} (hE : Held E) {x : Nat} {h : List Ix} (hm : ModestChain h) : ChainFits E x h :=
  fun e he => modest_all (hE x e he) hm

theorem modest_sc {α : Type} {E : Exts} (hE : Held E) : ∀ {s : Sc α}, ModestSc s → ScFits E s
  | .const _, _ => trivial
  | .elem _ _, h => modest_chain hE h

theorem modest_ex {α : Type} {E : Exts} (hE : Held E) : ∀ {e : PEx α}, ModestEx e → ExFits E e
  | .arr _ _, h => modest_chain hE h
  | .un _ e, h => modest_ex hE (e := e) h
  | .bin _ _ _, h => ⟨modest_ex hE h.1, modest_ex hE h.2⟩
  | .scl _ _ _, h => ⟨modest_sc hE h.1, modest_ex hE h.2⟩
  | .scr _ _ _, h => ⟨modest_ex hE h.1, modest_sc hE h.2⟩

theorem modest_stmt {α : Type} {E : Exts} (hE : Held E) {t : Stmt α} (h : ModestStmt t) : IxsFit E t ∧ written t ≤ maxElems := by
  have z : 0 ≤ maxElems := Nat.zero_le _
  cases t with
  | make x e => exact ⟨modest_ex hE h, z⟩
  | makeFill x s ext => exact ⟨⟨modest_sc hE h.1, h.2.1⟩, h.2.2⟩
  | makeFrom x l ext => exact h
  | drop x => exact ⟨trivial, z⟩
  | fill x hh s => exact ⟨⟨modest_chain hE h.1, modest_sc hE h.2⟩, z⟩
  | assign x hh e => exact ⟨⟨modest_chain hE h.1, modest_ex hE h.2⟩, z⟩
  | inPlace x hh op e => exact ⟨⟨modest_chain hE h.1, modest_ex hE h.2⟩, z⟩
  | inPlaceScalar x hh op s => exact ⟨⟨modest_chain hE h.1, modest_sc hE h.2⟩, z⟩
  | apply x hh f => exact ⟨modest_chain hE h, z⟩
  | overlap x hh e => exact ⟨⟨modest_chain hE h.1, modest_ex hE h.2⟩, z⟩
  | overlapWhole x e => exact ⟨modest_ex hE h, z⟩
  | set x e => exact ⟨modest_ex hE h, z⟩
  | moveAssign x y => exact ⟨trivial, z⟩

section
variable {α β : Type} {T : Nat → Bool} {nx : Bool} {alloc : Nat → List (Nat × Nat) → Nat → Option Nat}

theorem modest_run : ∀ {p : Body α β} {W : BWorld α}, Modest p → FitsRunB nx T alloc W p := by
  intro p
  induction p with
  | ret b => intro W _; trivial
  | throw => intro W _; trivial
  | exec s k ih => intro W h; exact ⟨fun hE t ht => modest_stmt hE (h.1 t ht), fun W' _ => ih h.2⟩
  | read s k ih => intro W h; exact ⟨fun hE => modest_sc hE h.1, fun _ v _ _ _ => ih v (h.2 v)⟩
  | elements e k ih => intro W h; exact ⟨fun hE => modest_ex hE h.1, fun _ _ _ _ _ => ih _ _ (h.2 _ _)⟩
  | block body k ih ih' => intro W h; exact ⟨ih h.1, fun _ _ b _ _ => ih' b (h.2 b)⟩
  | call x y body k ih ih' => intro W h; exact ⟨ih h.1, fun _ _ _ b _ _ _ => ih' b (h.2 b)⟩
  | attempt body handler k ih ihh ih' =>
    intro W h
    exact ⟨ih h.1, fun _ _ b _ _ => ih' b (h.2.2 b), fun _ _ _ _ => ⟨ihh h.2.1, fun _ _ b _ _ => ih' b (h.2.2 b)⟩⟩

theorem modest_any {Q : Prop} : ∀ {p : Body α β} {S : MStore α}, Modest p → FitsAny nx Q S p := by
  intro p
  induction p with
  | ret b => intro W _; trivial
  | throw => intro W _; trivial
  | exec s k ih => intro W h; exact ⟨fun hE t ht => modest_stmt hE (h.1 t ht), fun W' _ => ih h.2⟩
  | read s k ih => intro W h; exact ⟨fun hE => modest_sc hE h.1, fun v _ => ih v (h.2 v)⟩
  | elements e k ih => intro W h; exact ⟨fun hE => modest_ex hE h.1, fun _ _ _ => ih _ _ (h.2 _ _)⟩
  | block body k ih ih' => intro W h; exact ⟨ih h.1, fun _ _ b _ _ _ => ih' b (h.2 b)⟩
  | call x y body k ih ih' => intro W h; exact ⟨ih h.1, fun _ _ _ b _ _ _ _ => ih' b (h.2 b)⟩
  | attempt body handler k ih ihh ih' =>
    intro W h
    exact ⟨ih h.1, fun _ _ b _ _ _ => ih' b (h.2.2 b), fun _ _ _ _ _ => ⟨ihh h.2.1, fun _ _ b _ _ _ => ih' b (h.2.2 b)⟩⟩

end
end Jules
