import Verif.Props.DataFrame
import Verif.Spec.IterPair
import Verif.Props.Construct
/-
C66: arrays and data frames from iterators.
-/
namespace Jules.Props
open Spec

theorem multiPass_yields {I : Iterator σ ι α} {s : σ} {it : ι} {l : List α} (h : MultiPass I s it l) : Traverses I it s l := by
  induction h with
  | done h => exact .done h
  | step h1 h2 h3 _ ih => exact .step h1 h2 h3 ih

theorem distance_multi {I : Iterator σ ι α} {s : σ} {it : ι} {l : List α} (h : MultiPass I s it l) :
    ∀ fuel, l.length < fuel → I.distance fuel it s = .ok (l.length, s) := by
  induction h with
  | done h =>
    intro fuel hf
    cases fuel with
    | zero => simp at hf
    | succ n => simp [Iterator.distance, h]
  | step h1 h2 h3 _ ih =>
    intro fuel hf
    cases fuel with
    | zero => simp at hf
    | succ n => simp [Iterator.distance, h1, h3, ih n (by simpa using hf)]

theorem pull_multi {I : Iterator σ ι α} {s : σ} {it : ι} {l : List α} (h : MultiPass I s it l) :
    I.pull l.length it s = .ok (l, s) := by
  induction h with
  | done h => simp [Iterator.pull]
  | step h1 h2 h3 _ ih => simp [Iterator.pull, h2, h3, ih]

theorem visit_multi {I : Iterator σ ι α} {s : σ} {it : ι} {l : List α} (h : MultiPass I s it l) :
    ∀ fuel, l.length < fuel → I.visit fuel it s = .ok l := by
  induction h with
  | done h =>
    intro fuel hf
    cases fuel with
    | zero => simp at hf
    | succ n => simp [Iterator.visit, h]
  | step h1 h2 h3 _ ih =>
    intro fuel hf
    cases fuel with
    | zero => simp at hf
    | succ n => simp [Iterator.visit, h1, h2, h3, ih n (by simpa using hf)]

/-- Reading `n` elements of a traversal of at least that many gives the first `n`, and leaves the rest. -/
theorem pull_yields {I : Iterator σ ι α} {s : σ} {it : ι} {l : List α} (h : Traverses I it s l) :
    ∀ n, n ≤ l.length → ∃ it' s', I.pull n it s = .ok (l.take n, s') ∧ Traverses I it' s' (l.drop n) := by
  induction h with
  | done h =>
    intro n hn
    have : n = 0 := by simpa using hn
    subst this
    exact ⟨_, _, rfl, .done h⟩
  | @step it s x it' s' xs h1 h2 h3 h4 ih =>
    intro n hn
    cases n with
    | zero => exact ⟨it, s, rfl, .step h1 h2 h3 h4⟩
    | succ n =>
      obtain ⟨it2, s2, e, y⟩ := ih n (by simpa using hn)
      exact ⟨it2, s2, by simp [Iterator.pull, h2, h3, e], y⟩

theorem lift_ok_bind (b : β) (f : β → HM α γ) : (HM.lift (.ok b) >>= f) = f b := rfl

/-- Constructing the first cells of a block of sufficient size. -/
theorem newSeq_state {S : Nat → Bool} {n m : Nat} {ext : List Nat} {l : List α} {s' : σ} (hm : l.length = m) (hn : m ≤ n) (hl : m = prod ext)
    (hne : ext ≠ []) (h : Heap α) :
    Post ((do
        let id ← allocate S n
        (constructLoop S id [] (seqPlan m (iterSrc l))).cleanup (deallocate id)
        pure ((⟨some id, ext⟩ : Own), s') : HM α (Own × σ)) h)
      (fun r h' => Holds h' r.1 ext l ∧ r.2 = s' ∧ ∃ id, r.1.ptr = some id ∧ h'.cells id = some (l.map some ++ List.replicate (n - m) none))
      (fun _ h' => Thr S ∧ Untouched h h') := by
  refine post_bind (post_allocate.mono (fun _ _ h => h) fun e h' ⟨_, t, a, b⟩ => ⟨t, a, b⟩) ?_
  rintro id h1 ⟨hid, h1c, h1s⟩
  subst hid
  have hp : PlanOK h.blocks.length m h (seqPlan m (iterSrc l)) l := seqPlan_ok hm fun k v hk => good_iter hk
  have hraw : ∀ q ∈ (seqPlan m (iterSrc l)).map (·.1), (List.replicate n (none : Option α))[q]? = some none := by
    intro q hq
    have := (hp.mem q).1 hq
    rw [List.getElem?_replicate, if_pos (by omega)]
  refine post_bind (R := fun _ h' => h'.cells h.blocks.length = some (l.map some ++ List.replicate (n - m) none)) ?_ ?_
  · refine post_cleanup (R := fun e h' => Thr S ∧ ∃ c', h'.cells h.blocks.length = some c' ∧ (∀ x ∈ c', x = none) ∧
      Same h.blocks.length h h') ?_ ?_
    · refine (post_constructLoop (h0 := h) (vs := l) (done := []) h1c h1s hp.len hp.good (by simpa using hp.nodup)
        (by simp) hraw).mono ?_ ?_
      · rintro _ h2 ⟨c', a1, a2, a3, a4, a5⟩
        rw [a1]
        congr 1
        apply List.ext_getElem?
        intro k
        by_cases hk : k < m
        · have hv : l[k]? = some l[k] := List.getElem?_eq_getElem (by omega)
          have hp : (seqPlan m (iterSrc l))[k]? = some (k, iterSrc l k) := by simp [seqPlan, hk]
          rw [a3 k _ _ hp hv, List.getElem?_append_left (by simp; omega)]; simp [hv]
        · rw [a4 k (fun hc => hk ((hp.mem k).1 hc)), List.getElem?_append_right (by simp; omega)]
          simp only [List.getElem?_replicate, List.length_map, hm]
          by_cases hkn : k < n
          · rw [if_pos hkn, if_pos (by omega)]
          · rw [if_neg hkn, if_neg (by omega)]
      · rintro e h2 ⟨_, ht, c', a1, a2, a3, a4, a5⟩
        refine ⟨ht, c', a1, ?_, a5⟩
        intro x hx
        obtain ⟨q, hq⟩ := List.mem_iff_getElem?.1 hx
        have hlt : q < c'.length := (List.getElem?_eq_some_iff.1 hq).1
        rw [a2, List.length_replicate] at hlt
        by_cases hqm : q < m
        · rw [a3 q (by simpa using (hp.mem q).2 hqm)] at hq
          exact (Option.some.inj hq).symm
        · rw [a4 q (fun hc => hqm ((hp.mem q).1 hc))] at hq
          simp [hlt] at hq
          exact hq.symm
    · rintro e h2 ⟨ht, c', a1, a2, a3⟩
      refine (post_deallocate a1 a2).mono ?_ (fun _ _ h => h)
      rintro _ h3 ⟨b1, b2⟩
      refine ⟨ht, fun j => ?_, (a3.trans b2).lost⟩
      by_cases hj : j = h.blocks.length
      · subst hj; rw [b1, cells_fresh]
      · exact (a3.trans b2).cells j hj
  · intro _ h2 hc
    refine post_pure ⟨⟨rfl, ?_, ?_⟩, rfl, _, rfl, hc⟩
    · intro i hi
      refine ⟨_, (array_observes 0 hne).element i hi, ?_⟩
      have hlt := cmSum_lt hi
      have : (arrayView 0 ext).pos i = cmSum ext i := by simp [arrayView]
      simp only [contents, hc, Option.bind_some, this]
      rw [List.getElem?_append_left (by simp; omega), List.getElem?_map]
      cases l[cmSum ext i]? <;> rfl
    · refine ⟨List.range (prod ext), by simp [Obj.positions, prodL_exact], ?_⟩
      apply List.ext_getElem?
      intro k
      by_cases hk : k < prod ext
      · have hv : l[k]? = some l[k] := List.getElem?_eq_getElem (by omega)
        simp only [List.getElem?_map, List.getElem?_range hk, Option.map_some, contents, hc, Option.bind_some]
        rw [List.getElem?_append_left (by simp; omega), List.getElem?_map, hv]
        rfl
      · rw [List.getElem?_eq_none (by simpa using hk), List.getElem?_eq_none (by simp; omega)]

/-- **C66**, the part that holds: a vector made from an iterator and a sentinel has exactly the elements traversed, in order, when the
traversal can be repeated (forward iterators); if an element or the allocation throws nothing is left behind. Missing: single-pass iterators,
for which it is false, see `C66_istream_iterator` and `C66_istream_view`. -/
theorem C66_vector_partial {S : Nat → Bool} {I : Iterator σ ι α} {it : ι} {s : σ} {l : List α} (hm : MultiPass I s it l) (fuel : Nat)
    (hf : l.length < fuel) (h : Heap α) :
    Post (pairArr S I fuel it s h) (fun r h' => Holds h' r.1 [l.length] l ∧ r.2 = s) (fun _ h' => Thr S ∧ Untouched h h') := by
  have := newSeq_state (S := S) (n := l.length) (m := l.length) (ext := [l.length]) (l := l) (s' := s) rfl (Nat.le_refl _) (by simp [prod]) (by simp) h
  unfold pairArr
  simp only [distance_multi hm fuel hf, lift_ok_bind, pull_multi hm]
  exact this.mono (fun r h' hr => ⟨hr.1, hr.2.1⟩) fun _ _ hq => hq

/-- **C66.** An array of any order made from an iterator and extents has the first elements of the traversal in column-major order, also when
it can be traversed only once; the rest of the traversal is left for other users of the underlying sequence. -/
theorem C66_extents {S : Nat → Bool} {I : Iterator σ ι α} {it : ι} {s : σ} {l : List α} (hy : Traverses I it s l) {ext : List Nat} (hne : ext ≠ [])
    (hl : prod ext ≤ l.length) (h : Heap α) :
    Post (iterExtArr S I it s ext h)
      (fun r h' => Holds h' r.1 ext (l.take (prod ext)) ∧ ∃ it', Traverses I it' r.2 (l.drop (prod ext)))
      (fun _ h' => Thr S ∧ Untouched h h') := by
  obtain ⟨it', s', e, y⟩ := pull_yields hy _ hl
  have := newSeq_state (S := S) (n := prod ext) (m := prod ext) (ext := ext) (l := l.take (prod ext)) (s' := s') (by simp [hl]) (Nat.le_refl _) rfl hne h
  unfold iterExtArr
  rw [prodL_exact]
  simp only [e, lift_ok_bind]
  refine Post.mono this ?_ (fun _ _ h => h)
  rintro r h' ⟨h1, rfl, _⟩
  exact ⟨h1, it', y⟩

theorem stream_yields (x : α) (xs : List α) : Traverses streamIter (some x) xs (x :: xs) := by
  induction xs generalizing x with
  | nil => exact .step rfl rfl rfl (.done rfl)
  | cons y ys ih => exact .step rfl rfl rfl (ih y)

theorem streamView_yields (l : List α) : Traverses streamViewIter () l l := by
  induction l with
  | nil => exact .done rfl
  | cons y ys ih => exact .step rfl rfl rfl ih

theorem distance_stream (x : α) (xs : List α) : ∀ fuel, xs.length + 1 < fuel →
    streamIter.distance fuel (some x) xs = .ok (xs.length + 1, []) := by
  induction xs generalizing x with
  | nil =>
    intro fuel hf
    obtain ⟨f, rfl⟩ : ∃ f, fuel = f + 2 := ⟨fuel - 2, by simp at hf; omega⟩
    simp [Iterator.distance, streamIter]
  | cons y ys ih =>
    intro fuel hf
    obtain ⟨f, rfl⟩ : ∃ f, fuel = f + 1 := ⟨fuel - 1, by simp at hf; omega⟩
    have := ih y f (by simpa using hf)
    rw [Iterator.distance]
    simp only [streamIter, Option.isNone_some, Bool.false_eq_true, if_false, Option.map_some, List.head?_cons, List.tail_cons] at this ⊢
    rw [this]; rfl

theorem distance_streamView (l : List α) : ∀ fuel, l.length < fuel →
    streamViewIter.distance fuel () l = .ok (l.length, []) := by
  induction l with
  | nil =>
    intro fuel hf
    obtain ⟨f, rfl⟩ : ∃ f, fuel = f + 1 := ⟨fuel - 1, by simp at hf; omega⟩
    simp [Iterator.distance, streamViewIter]
  | cons y ys ih =>
    intro fuel hf
    obtain ⟨f, rfl⟩ : ∃ f, fuel = f + 1 := ⟨fuel - 1, by simp at hf; omega⟩
    have := ih f (by simpa using hf)
    rw [Iterator.distance]
    simp only [streamViewIter] at this ⊢
    simp [this]

/-- C66 is false for `std::istream_iterator`: of a stream with the values `x, xs...` the vector has only the first, although room for all has
been allocated, and the others are gone from the stream. -/
theorem C66_istream_iterator (x : α) (xs : List α) (fuel : Nat) (hf : xs.length + 1 < fuel) (h : Heap α) :
    Traverses streamIter (some x) xs (x :: xs) ∧
    ∃ o h', pairArr (fun _ => false) streamIter fuel (some x) xs h = .ok (o, []) h' ∧ Holds h' o [1] [x] ∧
      ∃ id, o.ptr = some id ∧ h'.cells id = some (some x :: List.replicate xs.length none) := by
  refine ⟨stream_yields x xs, ?_⟩
  have d2 : streamIter.distance fuel (some x) [] = .ok (1, []) := distance_stream x [] fuel (by simp; omega)
  have d3 : streamIter.pull 1 (some x) [] = .ok ([x], []) := rfl
  have := newSeq_state (S := fun _ => false) (n := xs.length + 1) (m := 1) (ext := [1]) (l := [x]) (s' := ([] : List α)) rfl (by omega) (by simp [prod])
    (by simp) h
  obtain ⟨⟨o, s'⟩, h', e, h1, h2, id, h3, h4⟩ := post_noThrow (fun _ => rfl) (this.mono (fun _ _ h => h) fun _ _ h => h.1)
  simp only at h2; subst h2
  refine ⟨o, h', ?_, h1, id, h3, by simpa using h4⟩
  unfold pairArr
  simp only [distance_stream x xs fuel hf, lift_ok_bind, d2, d3]
  exact e

/-- C66 is false for the iterators of `ranges::istream`: the vector is empty, whatever was in the stream, and the stream is exhausted. -/
theorem C66_istream_view (l : List α) (fuel : Nat) (hf : l.length < fuel) (h : Heap α) :
    Traverses streamViewIter () l l ∧
    ∃ o h', pairArr (fun _ => false) streamViewIter fuel () l h = .ok (o, []) h' ∧ Holds h' o [0] [] := by
  refine ⟨streamView_yields l, ?_⟩
  have d2 : streamViewIter.distance fuel () ([] : List α) = .ok (0, []) := distance_streamView [] fuel (by simp; omega)
  have d3 : streamViewIter.pull 0 () ([] : List α) = .ok ([], []) := rfl
  have := newSeq_state (S := fun _ => false) (n := l.length) (m := 0) (ext := [0]) (l := []) (s' := ([] : List α)) rfl (by omega) (by simp [prod])
    (by simp) h
  obtain ⟨⟨o, s'⟩, h', e, h1, h2, _⟩ := post_noThrow (fun _ => rfl) (this.mono (fun _ _ h => h) fun _ _ h => h.1)
  simp only at h2; subst h2
  refine ⟨o, h', ?_, h1⟩
  unfold pairArr
  simp only [distance_streamView l fuel hf, lift_ok_bind, d2, d3]
  exact e

/-- **C66**, the part that holds for data frames: made from forward iterators to named columns (at least one), a data frame is the one made from
the list of these columns, or fails for the same reason. -/
theorem C66_dataframe_partial {C : Coercion} {σ ι : Type} {I : Iterator σ ι (Named C)} {it : ι} {s : σ} {l : List (Named C)} (hm : MultiPass I s it l)
    (hl : l ≠ []) (fuel : Nat) (hf : l.length < fuel) : DF.ofIters I Named.copy fuel it s = DF.ofList l := by
  cases hm with
  | done h => exact absurd rfl hl
  | @step it x it' xs h1 h2 h3 h4 =>
    have hd := distance_multi (.step h1 h2 h3 h4) fuel hf
    have hv := visit_multi h4 fuel (by simp at hf; omega)
    simp only [DF.ofIters, hd, res_ok_bind, h2, h3, hv]
    rfl

/-- C66 is false for data frames read through an iterator like `std::istream_iterator`: only the first column is there. -/
theorem C66_dataframe_istream {C : Coercion} (x : Named C) (xs : List (Named C)) (fuel : Nat) (hf : xs.length + 1 < fuel) :
    Traverses streamIter (some x) xs (x :: xs) ∧
    DF.ofIters streamIter (fun e => .ok e) fuel (some x) xs =
      .ok ⟨Column.size x.col, [x], if x.name = [] then [] else [(x.name, 0)]⟩ := by
  refine ⟨stream_yields x xs, ?_⟩
  have hd := distance_stream x xs fuel hf
  obtain ⟨f, rfl⟩ : ∃ f, fuel = f + 1 := ⟨fuel - 1, by omega⟩
  simp only [DF.ofIters, hd, res_ok_bind]
  simp only [streamIter, Option.map_some, List.head?_nil, List.tail_nil, Iterator.visit, Option.isNone_none, if_true, res_ok_bind,
    List.map_cons, List.map_nil, DF.ofIter, pushSized, registerNames]
  by_cases h : x.name = [] <;> simp [h, findName]

/-- ... and through iterators of an input range it is undefined. -/
theorem C66_dataframe_istream_view {C : Coercion} (conv : Named C → Res (Named C)) (l : List (Named C)) (fuel : Nat) (hf : l.length < fuel) :
    DF.ofIters streamViewIter conv fuel () l = .error .ub := by
  simp only [DF.ofIters, distance_streamView l fuel hf, res_ok_bind]
  rfl

theorem listIter_multi (l : List α) : ∀ k, k ≤ l.length → MultiPass listIter l k (l.drop k) := by
  intro k hk
  induction hn : l.length - k generalizing k with
  | zero =>
    have : k = l.length := by omega
    subst this
    rw [List.drop_length]
    exact .done (by simp [listIter])
  | succ n ih =>
    have hlt : k < l.length := by omega
    rw [List.drop_eq_getElem_cons hlt]
    exact .step (by simp [listIter]; omega) (by simp [listIter, hlt]) (by simp [listIter, hlt]) (ih (k + 1) hlt (by omega))

/-- Iterators into a fixed sequence can be used, so the theorems above are not vacuous. -/
example (l : List α) (h : Heap α) : Post (pairArr (fun _ => false) listIter (l.length + 1) 0 l h)
    (fun r h' => Holds h' r.1 [l.length] l ∧ r.2 = l) (fun _ h' => Thr (fun _ => false) ∧ Untouched h h') :=
  C66_vector_partial (by simpa using listIter_multi l 0 (by omega)) _ (by omega) h
/-- `std::istream_iterator` over the values 1, 2, 3. -/
example : (match pairArr (fun _ => false) streamIter 10 (some 1) [2, 3] (⟨[], 0, 0⟩ : Heap Nat) with
    | .ok o h => some (o, h.blocks)
    | _ => none) = some ((⟨some 0, [1]⟩, []), [some [some 1, none, none]]) := by decide +kernel
/-- The same iterator with extents works. -/
example : (match iterExtArr (fun _ => false) streamIter (some 1) [2, 3, 4, 5] [2, 2] (⟨[], 0, 0⟩ : Heap Nat) with
    | .ok o h => some (o, h.blocks)
    | _ => none) = some ((⟨some 0, [2, 2]⟩, []), [some [some 1, some 2, some 3, some 4]]) := by decide +kernel

example := C66_extents (S := fun _ => false) (C66_istream_iterator 1 [2, 3, 4, 5] 10 (by decide) ⟨[], 0, 0⟩).1 (ext := [2, 2]) (by decide) (by decide) ⟨[], 0, 0⟩
example := C66_istream_view [1, 2, 3] 10 (by decide) ⟨[], 0, 0⟩
example := C66_dataframe_partial (listIter_multi [(⟨['x'], icol [1, 2]⟩ : Named (julesRules fpEx)), ⟨['y'], icol [3, 4]⟩] 0 (by decide)) (by decide) 10 (by decide)
example := C66_dataframe_istream (⟨['x'], icol [1, 2]⟩ : Named (julesRules fpEx)) [⟨['y'], icol [3, 4]⟩] 10 (by decide)
example := C66_dataframe_istream_view Named.copy [(⟨['x'], icol [1, 2]⟩ : Named (julesRules fpEx)), ⟨['y'], icol [3, 4]⟩] 10 (by decide)

end Jules.Props
