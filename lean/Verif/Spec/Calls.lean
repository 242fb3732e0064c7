import Verif.Model.Calls
/-
How often and in which order functions are called: computing an element once, and computing elements one after another.
-/
namespace Jules.Spec

/-- The functions of an expression, once for each place where they occur. -/
def functionsOf : CIt → List Nat
  | .cells _ => []
  | .map f it => functionsOf it ++ [f]
  | .zip f l r => functionsOf l ++ functionsOf r ++ [f]

/-- The element at position `k` is computed once, after the calls `h`: its value, and the calls made. The operands first, each once (those of
a binary function in either order), then the function with the operands' values. -/
inductive Round (U : Users α) (m : Mem α) : CIt → Nat → Log α → α → Log α → Prop
  | cells {ps : List Nat} {k p : Nat} {x : α} {h : Log α} : ps[k]? = some p → m p = some x → Round U m (.cells ps) k h x []
  | map {f it k h x c} : Round U m it k h x c → Round U m (.map f it) k h (U.resp (h ++ c) ⟨f, [x]⟩) (c ++ [⟨f, [x]⟩])
  | zipLeft {f l r k h x y c d} : Round U m l k h x c → Round U m r k (h ++ c) y d →
      Round U m (.zip f l r) k h (U.resp (h ++ (c ++ d)) ⟨f, [x, y]⟩) (c ++ d ++ [⟨f, [x, y]⟩])
  | zipRight {f l r k h x y c d} : Round U m r k h y d → Round U m l k (h ++ d) x c →
      Round U m (.zip f l r) k h (U.resp (h ++ (d ++ c)) ⟨f, [x, y]⟩) (d ++ c ++ [⟨f, [x, y]⟩])

/-- The elements from position `k` on are computed once each, in this order: their values, and the calls made for each of them. -/
inductive Rounds (U : Users α) (m : Mem α) (it : CIt) : Nat → Log α → List α → List (Log α) → Prop
  | nil {k h} : Rounds U m it k h [] []
  | cons {k h x c xs cs} : Round U m it k h x c → Rounds U m it (k + 1) (h ++ c) xs cs → Rounds U m it k h (x :: xs) (c :: cs)

/-- As `Rounds`, each value being stored in the next of the cells `ps` as soon as it is computed: the memory afterwards, and the calls. -/
inductive Stores (U : Users α) (it : CIt) : Nat → List Nat → Mem α → Log α → Mem α → List (Log α) → Prop
  | nil {k m h} : Stores U it k [] m h m []
  | cons {k p ps m h x c m' cs} : Round U m it k h x c → Stores U it (k + 1) ps (m.set p x) (h ++ c) m' cs →
      Stores U it k (p :: ps) m h m' (c :: cs)

/-- As `Stores`, the values being given, with the present values of the cells, to the function `f`, whose results are stored. -/
inductive Updates (U : Users α) (f : Nat) (it : CIt) : Nat → List Nat → Mem α → Log α → Mem α → List (Log α) → Prop
  | nil {k m h} : Updates U f it k [] m h m []
  | cons {k p ps m h x y c m' cs} : Round U m it k h y c → m p = some x →
      Updates U f it (k + 1) ps (m.set p (U.resp (h ++ c) ⟨f, [x, y]⟩)) (h ++ (c ++ [⟨f, [x, y]⟩])) m' cs →
      Updates U f it k (p :: ps) m h m' ((c ++ [⟨f, [x, y]⟩]) :: cs)

/-- Looking for the greatest of the `n` elements from position `k` on, from `s` at position `best`: an element whose value exceeds the present
maximum is computed once more, and the second value becomes the maximum. The result, its position, how many elements were computed twice, and
the calls. -/
inductive Search (U : Users α) (m : Mem α) (it : CIt) (lt : α → α → Bool) : Nat → Nat → α → Nat → Log α → α → Nat → Nat → Log α → Prop
  | nil {k s best h} : Search U m it lt 0 k s best h s best 0 []
  | worse {n k s best h x c v p j d} : Round U m it k h x c → lt s x = false → Search U m it lt n (k + 1) s best (h ++ c) v p j d →
      Search U m it lt (n + 1) k s best h v p j (c ++ d)
  | better {n k s best h x c y c' v p j d} : Round U m it k h x c → lt s x = true → Round U m it k (h ++ c) y c' →
      Search U m it lt n (k + 1) y k (h ++ c ++ c') v p j d → Search U m it lt (n + 1) k s best h v p (j + 1) (c ++ c' ++ d)

/-- The number of calls of a function. -/
def callsOf (f : Nat) (h : Log α) : Nat := (h.filter fun c => c.fn = f).length

/-- Functions without state: the result depends on the arguments only. -/
def Stateless (U : Users α) (F : Nat → List α → α) : Prop := ∀ h c, U.resp h c = F c.fn c.args

/-- The expression with these functions. -/
def withFunctions (F : Nat → List α → α) : CIt → It α
  | .cells ps => .cells ps
  | .map f it => .map (fun x => F f [x]) (withFunctions F it)
  | .zip f l r => .zip (fun x y => F f [x, y]) (withFunctions F l) (withFunctions F r)

/-- The expression with these functions, before it is created. -/
def withFunctionsE (F : Nat → List α → α) : CEx L → Ex L α
  | .leaf l => .leaf l
  | .un f e => .un (fun x => F f [x]) (withFunctionsE F e)
  | .bin f a b => .bin (fun x y => F f [x, y]) (withFunctionsE F a) (withFunctionsE F b)

end Jules.Spec
