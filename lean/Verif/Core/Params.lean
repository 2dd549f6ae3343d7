import Verif.Evaluation.Report

/-!
# Parameters of estimators: `get_params` and `set_params` (C215-C218)

core/base.py 186-244. Estimators refer to each other, so they live in a heap. An attribute that
does not exist reads `None` (`getattr(self, key, None)`), so attributes are a total function.
The recursion of `get_params` and `set_params` into nested estimators is bounded by a depth
(Python's recursion limit); running out of it is the error `other`.
-/

namespace Verif.Core.Params

/-- Names of parameters. -/
abbrev Name := List Char

/-- Values of parameters: plain data or another estimator. -/
inductive V where
  | none
  | data (n : Nat)
  | ref (o : Nat)
  deriving DecidableEq

/-- An estimator: the parameters of its constructor (`_get_param_names`, base.py 159-184) and its attributes. -/
structure Obj where
  params : List Name
  attr : Name → V

/-- All estimators. -/
abbrev Heap := Nat → Obj

/-- `setattr`. -/
def setattr (h : Heap) (o : Nat) (k : Name) (v : V) : Heap :=
  fun i => if i = o then ⟨(h o).params, fun k' => if k' = k then v else (h o).attr k'⟩ else h i

/-- `out[k] = v` of a dictionary. -/
def put {α : Type} : List (Name × α) → Name → α → List (Name × α)
  | [], k, v => [(k, v)]
  | e :: l, k, v => if e.1 = k then (k, v) :: l else e :: put l k v

/-- `key.partition('__')`: what comes before, and what comes after if the two underscores occur. -/
def partition : Name → Name × Option Name
  | [] => ([], none)
  | c :: r =>
    if c = '_' ∧ r.head? = some '_' then ([], some r.tail) else (c :: (partition r).1, (partition r).2)

/-- `key + '__' + k`. -/
def join (k s : Name) : Name := k ++ '_' :: '_' :: s

/-- One round of the loop in `get_params(deep=True)`, lines 201-206; `items` are those of the nested estimator. -/
def collect (h : Heap) (o : Nat) (nested : Nat → Option (List (Name × V))) (out : List (Name × V)) (key : Name) :
    Option (List (Name × V)) :=
  match (h o).attr key with
  | .ref s =>
    match nested s with
    | none => none
    | some items => some (put (items.foldl (fun out e => put out (join key e.1) e.2) out) key (.ref s))
  | v => some (put out key v)

/-- A loop that may fail. -/
def loop {α β : Type} (f : β → α → Option β) : β → List α → Option β
  | b, [] => some b
  | b, a :: l => match f b a with
    | none => none
    | some b => loop f b l

/-- `get_params(deep=True)`, base.py 186-207; `none` is `RecursionError`. -/
def getParams : Nat → Heap → Nat → Option (List (Name × V))
  | 0, _, _ => none
  | depth + 1, h, o => loop (collect h o (getParams depth h)) [] (h o).params

/-- The state of the first loop of `set_params`: the heap, `valid_params` and `nested_params`. -/
structure St where
  h : Heap
  valid : List (Name × V)
  nested : List (Name × List (Name × V))

/-- One round of the first loop, lines 228-239. -/
def assign (o : Nat) (s : St) (e : Name × V) : Except PyErr St :=
  match partition e.1 with
  | (key, sub) =>
    if (s.valid.lookup key).isNone then .error .valueError
    else
      match sub with
      | some sub => .ok ⟨s.h, s.valid, put s.nested key (put ((s.nested.lookup key).getD []) sub e.2)⟩
      | none => .ok ⟨setattr s.h o key e.2, put s.valid key e.2, s.nested⟩

/-- The first loop; on an error, the state it was in. -/
def assigns (o : Nat) : St → List (Name × V) → St × Option PyErr
  | s, [] => (s, none)
  | s, e :: l => match assign o s e with
    | .error err => (s, some err)
    | .ok s' => assigns o s' l

/-- The second loop, lines 241-242: `valid_params[key].set_params(**sub_params)`; plain data has no such method. -/
def descend (set : Heap → Nat → List (Name × V) → Heap × Option PyErr) (valid : List (Name × V)) :
    Heap → List (Name × List (Name × V)) → Heap × Option PyErr
  | h, [] => (h, none)
  | h, e :: l =>
    match valid.lookup e.1 with
    | some (.ref s) =>
      match set h s e.2 with
      | (h', some err) => (h', some err)
      | (h', none) => descend set valid h' l
    | _ => (h, some .attributeError)

/-- `set_params(**params)`, base.py 209-244: the heap afterwards, and the exception if any. -/
def setParams : Nat → Heap → Nat → List (Name × V) → Heap × Option PyErr
  | 0, h, _, _ => (h, some .other)
  | depth + 1, h, o, ps =>
    if ps = [] then (h, none)
    else
      match getParams (depth + 1) h o with
      | none => (h, some .other)
      | some valid =>
        match assigns o ⟨h, valid, []⟩ ps with
        | (s, some err) => (s.h, some err)
        | (s, none) => descend (setParams depth) s.valid s.h s.nested

/-! ### Specification -/

/-- A name without two underscores in a row and without one at the end, as all parameters have. -/
def Clean (k : Name) : Prop := partition k = (k, none) ∧ k.getLast? ≠ some '_'

/-- All parameters of all classes have such names. -/
def Named (h : Heap) : Prop := ∀ o, ∀ k ∈ (h o).params, Clean k

/-- Parameter `key` of estimator `o`, possibly one of a nested estimator, has value `v`. -/
inductive Reads (h : Heap) : Nat → Name → V → Prop
  | own (o : Nat) (k : Name) (hk : k ∈ (h o).params) : Reads h o k ((h o).attr k)
  | nested (o s : Nat) (k sub : Name) (v : V) (hk : k ∈ (h o).params) (hr : (h o).attr k = .ref s)
      (hs : Reads h s sub v) : Reads h o (k ++ ['_', '_'] ++ sub) v

/-- Estimator `o` after giving its parameters `ps` new values; nothing else is changed. -/
def Assigned (h : Heap) (o : Nat) (ps : List (Name × V)) (h' : Heap) : Prop :=
  (∀ i, i ≠ o → h' i = h i) ∧ (h' o).params = (h o).params ∧ (∀ e ∈ ps, (h' o).attr e.1 = e.2) ∧
    ∀ k, k ∉ ps.map Prod.fst → (h' o).attr k = (h o).attr k

/-! ### Proofs -/

theorem partition_own (k : Name) (hk : Clean k) : partition k = (k, none) := hk.1

theorem clean_tail (c : Char) (r : Name) (hk : Clean (c :: r)) : Clean r := by
  obtain ⟨h1, h2⟩ := hk
  rw [partition] at h1
  split at h1
  · simp at h1
  · simp only [Prod.mk.injEq, List.cons.injEq, true_and] at h1
    refine ⟨Prod.ext h1.1 h1.2, ?_⟩
    cases r with
    | nil => simp
    | cons d r => simpa using h2

theorem partition_join (k s : Name) (hk : Clean k) : partition (k ++ ['_', '_'] ++ s) = (k, some s) := by
  induction k with
  | nil => rfl
  | cons c r ih =>
    have ih := ih (clean_tail c r hk)
    simp only [List.cons_append] at ih ⊢
    rw [partition, if_neg, ih]
    rintro ⟨rfl, h2⟩
    cases r with
    | nil => exact hk.2 rfl
    | cons d r =>
      simp only [List.cons_append, List.head?_cons, Option.some.injEq] at h2
      have := hk.1
      rw [h2, partition, if_pos (by simp)] at this
      simp at this

theorem mem_put {α : Type} (l : List (Name × α)) (k : Name) (v : α) (e : Name × α) (h : e ∈ put l k v) : e ∈ l ∨ e = (k, v) := by
  induction l with
  | nil => simpa [put] using h
  | cons a l ih =>
    rw [put] at h
    split at h
    · rcases List.mem_cons.1 h with h | h
      · exact .inr h
      · exact .inl (List.mem_cons_of_mem _ h)
    · rcases List.mem_cons.1 h with h | h
      · exact .inl (h ▸ List.mem_cons_self)
      · rcases ih h with h | h
        · exact .inl (List.mem_cons_of_mem _ h)
        · exact .inr h

theorem lookup_put {α : Type} (l : List (Name × α)) (k : Name) (v : α) (k' : Name) :
    (put l k v).lookup k' = if k' = k then some v else l.lookup k' := by
  induction l with
  | nil =>
    simp only [put, List.lookup_cons, List.lookup_nil]
    by_cases h : k' = k
    · simp [h]
    · have : (k' == k) = false := by simpa using h
      simp [h, this]
  | cons a l ih =>
    rw [put]
    by_cases h1 : a.1 = k
    · rw [if_pos h1, List.lookup_cons, List.lookup_cons]
      by_cases h : k' = k
      · simp [h]
      · have h2 : (k' == k) = false := by simpa using h
        have h3 : (k' == a.1) = false := by rw [h1]; exact h2
        simp [h, h2, h3]
    · rw [if_neg h1, List.lookup_cons, List.lookup_cons, ih]
      by_cases h : k' = k
      · have h3 : (k' == a.1) = false := by rw [h]; simpa using fun hc => h1 hc.symm
        rw [h3, if_pos h]
      · simp [h]

theorem lookup_mem {α : Type} (l : List (Name × α)) (k : Name) (v : α) (h : l.lookup k = some v) : (k, v) ∈ l := by
  induction l with
  | nil => simp at h
  | cons a l ih =>
    rw [List.lookup_cons] at h
    split at h
    · rename_i hk
      simp only [Option.some.injEq] at h
      have : k = a.1 := by simpa using hk
      subst h
      rw [this]
      exact List.mem_cons_self
    · exact List.mem_cons_of_mem _ (ih h)

/-- The parameters `get_params` has collected are those there are. -/
theorem collect_reads (h : Heap) (o : Nat) (nested : Nat → Option (List (Name × V)))
    (hn : ∀ s items, nested s = some items → ∀ e ∈ items, Reads h s e.1 e.2) (out out' : List (Name × V)) (key : Name)
    (hk : key ∈ (h o).params) (ho : ∀ e ∈ out, Reads h o e.1 e.2) (hc : collect h o nested out key = some out') :
    ∀ e ∈ out', Reads h o e.1 e.2 := by
  have hown : ∀ v, (h o).attr key = v → Reads h o key v := fun v hv => hv ▸ Reads.own o key hk
  rw [collect] at hc
  split at hc
  · rename_i s hs
    cases hi : nested s with
    | none => rw [hi] at hc; cases hc
    | some items =>
      rw [hi] at hc
      simp only [Option.some.injEq] at hc
      subst hc
      have key2 : ∀ (items' : List (Name × V)) (out : List (Name × V)), (∀ e ∈ items', e ∈ items) → (∀ e ∈ out, Reads h o e.1 e.2) →
          ∀ e ∈ items'.foldl (fun out e => put out (join key e.1) e.2) out, Reads h o e.1 e.2 := by
        intro items'
        induction items' with
        | nil => intro out _ ho; exact ho
        | cons a items' ih =>
          intro out hsub ho
          refine ih _ (fun e he => hsub e (List.mem_cons_of_mem _ he)) ?_
          intro e he
          rcases mem_put _ _ _ _ he with he | he
          · exact ho e he
          · subst he
            have := Reads.nested o s key a.1 a.2 hk hs (hn s items hi a (hsub a List.mem_cons_self))
            simpa [join] using this
      intro e he
      rcases mem_put _ _ _ _ he with he | he
      · exact key2 items out (fun e he => he) ho e he
      · subst he
        exact hown _ hs
  · rename_i v hv
    simp only [Option.some.injEq] at hc
    subst hc
    intro e he
    rcases mem_put _ _ _ _ he with he | he
    · exact ho e he
    · subst he
      exact hown _ rfl

theorem getParams_reads (d : Nat) (h : Heap) (o : Nat) (ps : List (Name × V)) (hg : getParams d h o = some ps) :
    ∀ e ∈ ps, Reads h o e.1 e.2 := by
  induction d generalizing o ps with
  | zero => cases hg
  | succ d ih =>
    rw [getParams] at hg
    have key : ∀ (l : List Name) (out ps : List (Name × V)), (∀ k ∈ l, k ∈ (h o).params) → (∀ e ∈ out, Reads h o e.1 e.2) →
        loop (collect h o (getParams d h)) out l = some ps → ∀ e ∈ ps, Reads h o e.1 e.2 := by
      intro l
      induction l with
      | nil => intro out ps _ ho hl; simp only [loop, Option.some.injEq] at hl; subst hl; exact ho
      | cons k l ihl =>
        intro out ps hk ho hl
        rw [loop] at hl
        cases hc : collect h o (getParams d h) out k with
        | none => rw [hc] at hl; cases hl
        | some out' =>
          rw [hc] at hl
          exact ihl out' ps (fun k' hk' => hk k' (List.mem_cons_of_mem _ hk'))
            (collect_reads h o _ (fun s items hi => ih s items hi) out out' k (hk k List.mem_cons_self) ho hc) hl
    exact key _ [] ps (fun k hk => hk) (by simp) hg

/-- What is found under a plain name. -/
theorem collect_lookup (h : Heap) (o : Nat) (nested : Nat → Option (List (Name × V))) (out out' : List (Name × V)) (key k : Name)
    (hkey : Clean key) (hk : partition k = (k, none)) (hc : collect h o nested out key = some out') :
    out'.lookup k = if k = key then some ((h o).attr key) else out.lookup k := by
  rw [collect] at hc
  split at hc
  · rename_i s hs
    cases hi : nested s with
    | none => rw [hi] at hc; cases hc
    | some items =>
      rw [hi] at hc
      simp only [Option.some.injEq] at hc
      subst hc
      rw [lookup_put, hs]
      have : ∀ (items : List (Name × V)) (out : List (Name × V)),
          (items.foldl (fun out e => put out (join key e.1) e.2) out).lookup k = out.lookup k := by
        intro items
        induction items with
        | nil => intro out; rfl
        | cons a items ih =>
          intro out
          rw [List.foldl_cons, ih, lookup_put, if_neg]
          intro hka
          have h1 := partition_join key a.1 hkey
          have h2 : join key a.1 = key ++ ['_', '_'] ++ a.1 := by simp [join]
          rw [← h2, ← hka, hk] at h1
          simp at h1
      rw [this]
  · simp only [Option.some.injEq] at hc
    subst hc
    rw [lookup_put]

theorem getParams_lookup (d : Nat) (h : Heap) (hn : Named h) (o : Nat) (ps : List (Name × V)) (hg : getParams d h o = some ps) (k : Name)
    (hk : partition k = (k, none)) : ps.lookup k = if k ∈ (h o).params then some ((h o).attr k) else none := by
  cases d with
  | zero => cases hg
  | succ d =>
    rw [getParams] at hg
    have key : ∀ (l : List Name) (out ps : List (Name × V)), (∀ k ∈ l, Clean k) →
        loop (collect h o (getParams d h)) out l = some ps →
        ps.lookup k = if k ∈ l then some ((h o).attr k) else out.lookup k := by
      intro l
      induction l with
      | nil => intro out ps _ hl; simp only [loop, Option.some.injEq] at hl; subst hl; simp
      | cons a l ihl =>
        intro out ps ha hl
        rw [loop] at hl
        cases hc : collect h o (getParams d h) out a with
        | none => rw [hc] at hl; cases hl
        | some out' =>
          rw [hc] at hl
          rw [ihl out' ps (fun k' hk' => ha k' (List.mem_cons_of_mem _ hk')) hl,
            collect_lookup h o _ out out' a k (ha a List.mem_cons_self) hk hc]
          by_cases h1 : k ∈ l
          · simp [h1]
          · by_cases h2 : k = a
            · simp [h2]
            · simp [h1, h2]
    rw [key _ [] ps (fun k' hk' => hn o k' hk') hg]
    simp

theorem setattr_same (h : Heap) (o : Nat) (k : Name) : setattr h o k ((h o).attr k) = h := by
  funext i
  simp only [setattr]
  by_cases hi : i = o
  · subst hi
    rw [if_pos rfl]
    have : (fun k' => if k' = k then (h i).attr k else (h i).attr k') = (h i).attr := by
      funext k'
      by_cases hk : k' = k
      · rw [if_pos hk, hk]
      · rw [if_neg hk]
    rw [this]
  · rw [if_neg hi]

/-- Setting any of the parameters to the value it has changes nothing. -/
theorem set_same (h : Heap) (hn : Named h) (d : Nat) : ∀ (o : Nat) (ps ps' : List (Name × V)), getParams d h o = some ps' →
    (∀ e ∈ ps, Reads h o e.1 e.2) → setParams d h o ps = (h, none) := by
  induction d with
  | zero => intro o ps ps' hg; cases hg
  | succ d ih =>
    intro o ps ps' hg hr
    rw [setParams]
    by_cases hps : ps = []
    · rw [if_pos hps]
    rw [if_neg hps, hg]
    -- what is collected for nested estimators
    have key : ∀ (l : List (Name × V)) (s : St), s.h = h →
        (∀ k, partition k = (k, none) → s.valid.lookup k = if k ∈ (h o).params then some ((h o).attr k) else none) →
        (∀ a ∈ s.nested, ∃ t, Clean a.1 ∧ s.valid.lookup a.1 = some (.ref t) ∧ a.1 ∈ (h o).params ∧ ∀ e ∈ a.2, Reads h t e.1 e.2) →
        (∀ e ∈ l, Reads h o e.1 e.2) →
        ∃ s', assigns o s l = (s', none) ∧ s'.h = h ∧
          (∀ a ∈ s'.nested, ∃ t, s'.valid.lookup a.1 = some (.ref t) ∧ a.1 ∈ (h o).params ∧ (h o).attr a.1 = .ref t ∧ ∀ e ∈ a.2, Reads h t e.1 e.2) := by
      intro l
      induction l with
      | nil =>
        intro s h1 h2 h3 _
        refine ⟨s, rfl, h1, fun a ha => ?_⟩
        obtain ⟨t, c1, c2, c3, c4⟩ := h3 a ha
        refine ⟨t, c2, c3, ?_, c4⟩
        have := h2 a.1 c1.1
        rw [c2, if_pos c3, Option.some.injEq] at this
        exact this.symm
      | cons e l ihl =>
        intro s h1 h2 h3 h4
        have he := h4 e List.mem_cons_self
        obtain ⟨key, v⟩ := e
        simp only at he
        cases he with
        | own _ _ hk =>
          have hck := hn o key hk
          have ha : assign o s (key, (h o).attr key) = .ok ⟨h, put s.valid key ((h o).attr key), s.nested⟩ := by
            simp only [assign, hck.1, h2 key hck.1, if_pos hk, h1, setattr_same]
            rfl
          rw [assigns, ha]
          refine ihl _ rfl ?_ ?_ (fun e he => h4 e (List.mem_cons_of_mem _ he))
          · intro k hkk
            simp only [lookup_put]
            by_cases hkk' : k = key
            · rw [if_pos hkk', hkk', if_pos hk]
            · rw [if_neg hkk']
              exact h2 k hkk
          · intro a ha
            obtain ⟨t, c1, c2, c3, c4⟩ := h3 a ha
            refine ⟨t, c1, ?_, c3, c4⟩
            simp only [lookup_put]
            by_cases hkk' : a.1 = key
            · rw [if_pos hkk', ← hkk']
              have := h2 a.1 c1.1
              rw [c2, if_pos c3] at this
              exact this.symm
            · rw [if_neg hkk']; exact c2
        | nested _ t k sub _ hk hrf hs =>
          have hck := hn o k hk
          have ha : assign o s (k ++ ['_', '_'] ++ sub, v) =
              .ok ⟨h, s.valid, put s.nested k (put ((s.nested.lookup k).getD []) sub v)⟩ := by
            simp only [assign, partition_join k sub hck, h2 k hck.1, if_pos hk, h1]
            rfl
          rw [assigns, ha]
          have hvk : s.valid.lookup k = some (.ref t) := by rw [h2 k hck.1, if_pos hk, hrf]
          refine ihl _ rfl h2 ?_ (fun e he => h4 e (List.mem_cons_of_mem _ he))
          intro a ha
          rcases mem_put _ _ _ _ ha with ha | ha
          · exact h3 a ha
          · subst ha
            refine ⟨t, hck, hvk, hk, ?_⟩
            intro e he
            rcases mem_put _ _ _ _ he with he | he
            · cases hl : s.nested.lookup k with
              | none => rw [hl] at he; simp at he
              | some es =>
                rw [hl] at he
                simp only [Option.getD_some] at he
                obtain ⟨t', _, c2, _, c4⟩ := h3 _ (lookup_mem _ _ _ hl)
                simp only at c2 c4
                rw [hvk] at c2
                cases c2
                exact c4 e he
            · subst he
              exact hs
    obtain ⟨s', e1, e2, e3⟩ := key ps ⟨h, ps', []⟩ rfl (fun k hk => getParams_lookup _ h hn o ps' hg k hk) (by simp) hr
    simp only [e1, e2]
    -- nested estimators of `o` have been asked for their parameters
    have hsub : ∀ k t, k ∈ (h o).params → (h o).attr k = .ref t → ∃ items, getParams d h t = some items := by
      intro k t hk ht
      rw [getParams] at hg
      have : ∀ (l : List Name) (out ps : List (Name × V)), loop (collect h o (getParams d h)) out l = some ps → k ∈ l →
          ∃ items, getParams d h t = some items := by
        intro l
        induction l with
        | nil => intro out ps _ hkl; simp at hkl
        | cons a l ihl =>
          intro out ps hl hkl
          rw [loop] at hl
          cases hc : collect h o (getParams d h) out a with
          | none => rw [hc] at hl; cases hl
          | some out' =>
            rw [hc] at hl
            rcases List.mem_cons.1 hkl with rfl | hkl
            · rw [collect, ht] at hc
              cases hi : getParams d h t with
              | none => simp only [hi] at hc; cases hc
              | some items => exact ⟨items, rfl⟩
            · exact ihl out' ps hl hkl
      exact this _ _ _ hg hk
    have hdesc : ∀ l : List (Name × List (Name × V)), (∀ a ∈ l, a ∈ s'.nested) → descend (setParams d) s'.valid h l = (h, none) := by
      intro l
      induction l with
      | nil => intro _; rfl
      | cons a l ihl =>
        intro hl
        obtain ⟨t, c1, c2, c3, c4⟩ := e3 a (hl a List.mem_cons_self)
        obtain ⟨items, hi⟩ := hsub a.1 t c2 c3
        rw [descend, c1]
        simp only [ih t a.2 items hi c4]
        exact ihl fun a' ha' => hl a' (List.mem_cons_of_mem _ ha')
    exact hdesc _ fun a ha => ha

/-- **C215**: `get_params` reports values that the parameters, also those of nested estimators, have, and
every parameter of the estimator is reported; -/
theorem C215_get (d : Nat) (h : Heap) (hn : Named h) (o : Nat) (ps : List (Name × V)) (hg : getParams d h o = some ps) :
    (∀ e ∈ ps, Reads h o e.1 e.2) ∧ ∀ k ∈ (h o).params, ps.lookup k = some ((h o).attr k) :=
  ⟨getParams_reads d h o ps hg, fun k hk => by rw [getParams_lookup d h hn o ps hg k (hn o k hk).1, if_pos hk]⟩

/-- **C215**: and giving what it reports, or a part of it, to `set_params` changes nothing, in no estimator. -/
theorem C215_round_trip (d : Nat) (h : Heap) (hn : Named h) (o : Nat) (ps qs : List (Name × V)) (hg : getParams d h o = some ps)
    (hq : ∀ e ∈ qs, e ∈ ps) : setParams d h o qs = (h, none) :=
  set_same h hn d o qs ps hg fun e he => getParams_reads d h o ps hg e (hq e he)

/-! #### New values -/

theorem getParams_all (d : Nat) (h : Heap) (o : Nat) : (∃ ps, getParams d h o = some ps) ∨ getParams d h o = none := by
  cases getParams d h o with
  | none => exact .inr rfl
  | some ps => exact .inl ⟨ps, rfl⟩

/-- Parameters of the estimator itself, in the first loop. -/
theorem assigns_own (o : Nat) (l : List (Name × V)) (hl : (l.map Prod.fst).Nodup) (hp : ∀ e ∈ l, partition e.1 = (e.1, none)) (s : St)
    (hv : ∀ e ∈ l, (s.valid.lookup e.1).isSome) :
    ∃ s', assigns o s l = (s', none) ∧ s'.nested = s.nested ∧ Assigned s.h o l s'.h ∧
      ∀ k, s'.valid.lookup k = if k ∈ l.map Prod.fst then l.lookup k else s.valid.lookup k := by
  induction l generalizing s with
  | nil => exact ⟨s, rfl, rfl, ⟨fun _ _ => rfl, rfl, by simp, fun _ _ => rfl⟩, fun k => by simp⟩
  | cons e l ih =>
    obtain ⟨key, v⟩ := e
    simp only [List.map_cons, List.nodup_cons] at hl
    have hk := hp _ List.mem_cons_self
    simp only at hk
    have ha : assign o s (key, v) = .ok ⟨setattr s.h o key v, put s.valid key v, s.nested⟩ := by
      have hx := hv _ List.mem_cons_self
      simp only at hx
      simp only [assign, hk]
      rw [if_neg]
      rw [Option.isNone_iff_eq_none]
      intro hc
      rw [hc] at hx
      simp at hx
    obtain ⟨s', g1, g2, ⟨g3, g4, g5, g6⟩, g7⟩ := ih hl.2 (fun e he => hp e (List.mem_cons_of_mem _ he))
      ⟨setattr s.h o key v, put s.valid key v, s.nested⟩ (fun e he => by
        simp only [lookup_put]
        split
        · rfl
        · exact hv e (List.mem_cons_of_mem _ he))
    refine ⟨s', by rw [assigns, ha]; exact g1, g2, ⟨?_, ?_, ?_, ?_⟩, ?_⟩
    · intro i hi
      rw [g3 i hi]
      simp [setattr, hi]
    · rw [g4]; simp [setattr]
    · intro e he
      rcases List.mem_cons.1 he with rfl | he
      · rw [g6 key hl.1]; simp [setattr]
      · exact g5 e he
    · intro k hk
      simp only [List.map_cons, List.mem_cons, not_or] at hk
      rw [g6 k hk.2]
      simp [setattr, hk.1]
    · intro k
      rw [g7 k, lookup_put, List.map_cons, List.lookup_cons]
      by_cases h1 : k = key
      · subst h1
        simp [hl.1]
      · have h2 : (k == key) = false := by simpa using h1
        rw [h2, if_neg h1]
        simp only [List.mem_cons, h1, false_or]

theorem isSome_of (d : Nat) (h : Heap) (hn : Named h) (o : Nat) (ps : List (Name × V)) (hg : getParams d h o = some ps) (k : Name)
    (hk : k ∈ (h o).params) : (ps.lookup k).isSome := by
  rw [getParams_lookup d h hn o ps hg k (hn o k hk).1, if_pos hk]
  rfl

/-- **C216**: parameters of the estimator itself: those given get the values given, the others keep theirs, and
no other estimator is changed. -/
theorem C216_set_own (d : Nat) (h : Heap) (hn : Named h) (o : Nat) (valid : List (Name × V)) (hg : getParams d h o = some valid)
    (ps : List (Name × V)) (hps : (ps.map Prod.fst).Nodup) (hk : ∀ e ∈ ps, e.1 ∈ (h o).params) :
    ∃ h', setParams d h o ps = (h', none) ∧ Assigned h o ps h' := by
  cases d with
  | zero => cases hg
  | succ d =>
    rw [setParams]
    by_cases he : ps = []
    · rw [if_pos he]
      subst he
      exact ⟨h, rfl, fun _ _ => rfl, rfl, by simp, fun _ _ => rfl⟩
    · rw [if_neg he, hg]
      obtain ⟨s', g1, g2, g3, _⟩ := assigns_own o ps hps (fun e he => (hn o _ (hk e he)).1) ⟨h, valid, []⟩
        (fun e he => isSome_of _ h hn o valid hg e.1 (hk e he))
      refine ⟨s'.h, ?_, g3⟩
      simp only [g1, g2, descend]

/-- **C216**: a parameter of a nested estimator, `k__sub`, is given to that estimator, -/
theorem C216_set_nested (d : Nat) (h : Heap) (hn : Named h) (o s : Nat) (valid : List (Name × V)) (hg : getParams (d + 1) h o = some valid)
    (k sub : Name) (v : V) (hk : k ∈ (h o).params) (hs : (h o).attr k = .ref s) :
    setParams (d + 1) h o [(k ++ ['_', '_'] ++ sub, v)] = setParams d h s [(sub, v)] := by
  have hck := hn o k hk
  have hl := getParams_lookup _ h hn o valid hg k hck.1
  rw [if_pos hk, hs] at hl
  rw [setParams, if_neg (by simp), hg]
  simp only [assigns, assign, partition_join k sub hck, hl]
  simp only [Option.isNone_some, Bool.false_eq_true, if_false, List.lookup_nil, Option.getD_none, put, descend, hl]
  rcases hr : setParams d h s [(sub, v)] with ⟨h', _ | err⟩ <;> rfl

/-- **C216**: to the new one if the estimator is replaced in the same call, whichever is written first. -/
theorem C216_set_replaced (d : Nat) (h : Heap) (hn : Named h) (o s : Nat) (valid : List (Name × V)) (hg : getParams (d + 1) h o = some valid)
    (k sub : Name) (v : V) (hk : k ∈ (h o).params) (ps : List (Name × V))
    (hps : ps = [(k ++ ['_', '_'] ++ sub, v), (k, .ref s)] ∨ ps = [(k, .ref s), (k ++ ['_', '_'] ++ sub, v)]) :
    ∃ h', Assigned h o [(k, .ref s)] h' ∧ setParams (d + 1) h o ps = setParams d h' s [(sub, v)] := by
  have hck := hn o k hk
  have hl := getParams_lookup _ h hn o valid hg k hck.1
  rw [if_pos hk] at hl
  refine ⟨setattr h o k (.ref s), ⟨?_, ?_, ?_, ?_⟩, ?_⟩
  · intro i hi; simp [setattr, hi]
  · simp [setattr]
  · simp [setattr]
  · intro k' hk'
    simp only [List.map_cons, List.map_nil, List.mem_singleton] at hk'
    simp [setattr, hk']
  · rcases hps with rfl | rfl
    all_goals
      rw [setParams, if_neg (by simp), hg]
      simp only [assigns, assign, partition_join k sub hck, hck.1, hl]
      simp only [Option.isNone_some, Bool.false_eq_true, if_false, List.lookup_nil, Option.getD_none, put, descend, lookup_put, if_true, hl]
      rcases hr : setParams d (setattr h o k (.ref s)) s [(sub, v)] with ⟨h', _ | err⟩ <;> rfl

/-! #### Errors -/

theorem assigns_append (o : Nat) (l1 l2 : List (Name × V)) (s s' : St) (h : assigns o s l1 = (s', none)) :
    assigns o s (l1 ++ l2) = assigns o s' l2 := by
  induction l1 generalizing s with
  | nil => simp only [assigns, Prod.mk.injEq] at h; rw [h.1]; rfl
  | cons e l1 ih =>
    rw [List.cons_append]
    rw [assigns] at h ⊢
    cases ha : assign o s e with
    | error err => rw [ha] at h; simp at h
    | ok s1 => rw [ha] at h; exact ih s1 h

theorem partition_first (k : Name) : partition (partition k).1 = ((partition k).1, none) := by
  induction k with
  | nil => rfl
  | cons c r ih =>
    rw [partition]
    by_cases h : c = '_' ∧ r.head? = some '_'
    · rw [if_pos h]; rfl
    · rw [if_neg h]
      simp only
      rw [partition, if_neg, ih]
      rintro ⟨h1, h2⟩
      apply h
      refine ⟨h1, ?_⟩
      cases r with
      | nil => simp [partition] at h2
      | cons e r2 =>
        rw [partition] at h2
        by_cases h' : e = '_' ∧ r2.head? = some '_'
        · rw [if_pos h'] at h2; simp at h2
        · rw [if_neg h'] at h2; simpa using h2

theorem assigns_unknown (o : Nat) (P : Name → Prop) (l : List (Name × V)) (s : St)
    (hv : ∀ k, (s.valid.lookup k).isSome → partition k = (k, none) → P k) (e : Name × V) (he : e ∈ l) (hbad : ¬ P (partition e.1).1) :
    (assigns o s l).2 = some .valueError := by
  induction l generalizing s with
  | nil => simp at he
  | cons a l ih =>
    rw [assigns]
    by_cases hx : (s.valid.lookup (partition a.1).1).isNone = true
    · have : assign o s a = .error .valueError := by simp only [assign, hx, if_true]
      rw [this]
    · have hne : e ≠ a := by
        rintro rfl
        refine hbad (hv _ ?_ (partition_first e.1))
        cases hl : s.valid.lookup (partition e.1).1 with
        | none => rw [hl] at hx; simp at hx
        | some v => rfl
      have hel : e ∈ l := by
        rcases List.mem_cons.1 he with h | h
        · exact absurd h hne
        · exact h
      cases hsub : (partition a.1).2 with
      | some sub =>
        have : assign o s a = .ok ⟨s.h, s.valid, put s.nested (partition a.1).1 (put ((s.nested.lookup (partition a.1).1).getD []) sub a.2)⟩ := by
          simp only [assign, hx, hsub]
          rfl
        rw [this]
        exact ih _ hv hel
      | none =>
        have : assign o s a = .ok ⟨setattr s.h o (partition a.1).1 a.2, put s.valid (partition a.1).1 a.2, s.nested⟩ := by
          simp only [assign, hx, hsub]
          rfl
        rw [this]
        refine ih _ (fun k hk hp => ?_) hel
        simp only [lookup_put] at hk
        by_cases hk' : k = (partition a.1).1
        · refine hv k ?_ hp
          rw [hk']
          cases hl : s.valid.lookup (partition a.1).1 with
          | none => rw [hl] at hx; simp at hx
          | some v => rfl
        · rw [if_neg hk'] at hk
          exact hv k hk hp

/-- **C217**, partial: a name whose first part is no parameter of the estimator raises `ValueError`, wherever it
stands, -/
theorem C217_unknown_partial (d : Nat) (h : Heap) (hn : Named h) (o : Nat) (valid : List (Name × V)) (hg : getParams d h o = some valid)
    (ps : List (Name × V)) (bad : Name) (v : V) (hbad : (partition bad).1 ∉ (h o).params) (hmem : (bad, v) ∈ ps) :
    (setParams d h o ps).2 = some .valueError := by
  cases d with
  | zero => cases hg
  | succ d =>
    rw [setParams, if_neg (by rintro rfl; simp at hmem), hg]
    have := assigns_unknown o (· ∈ (h o).params) ps ⟨h, valid, []⟩ (fun k hk hp => by
      simp only at hk
      rw [getParams_lookup _ h hn o valid hg k hp] at hk
      by_cases hkm : k ∈ (h o).params
      · exact hkm
      · rw [if_neg hkm] at hk; simp at hk) (bad, v) hmem hbad
    rcases ha : assigns o ⟨h, valid, []⟩ ps with ⟨s', err⟩
    rw [ha] at this
    simp only at this
    subst this
    simp only [ha]

/-- C217 (violated): but the parameters given before it have been changed by then. -/
theorem C217_half_done_violated (d : Nat) (h : Heap) (hn : Named h) (o : Nat) (valid : List (Name × V)) (hg : getParams d h o = some valid)
    (ps : List (Name × V)) (hps : (ps.map Prod.fst).Nodup) (hk : ∀ e ∈ ps, e.1 ∈ (h o).params) (bad : Name) (v : V)
    (hbad : (partition bad).1 ∉ (h o).params) (rest : List (Name × V)) :
    Assigned h o ps (setParams d h o (ps ++ (bad, v) :: rest)).1 := by
  cases d with
  | zero => cases hg
  | succ d =>
    rw [setParams, if_neg (by simp), hg]
    obtain ⟨s', g1, g2, g3, g4⟩ := assigns_own o ps hps (fun e he => (hn o _ (hk e he)).1) ⟨h, valid, []⟩
      (fun e he => isSome_of _ h hn o valid hg e.1 (hk e he))
    have hnone : s'.valid.lookup (partition bad).1 = none := by
      rw [g4, if_neg]
      · have := getParams_lookup _ h hn o valid hg (partition bad).1 (partition_first bad)
        rw [if_neg hbad] at this
        exact this
      · intro hc
        obtain ⟨e, he, hee⟩ := List.mem_map.1 hc
        exact hbad (hee ▸ hk e he)
    simp only [assigns_append o ps _ _ s' g1, assigns, assign, hnone]
    exact g3

/-! #### Parameters kept under another name -/

/-- `DDM(min_num_instances, warning_level, out_control_level)`: ddm.py 80-91. -/
def ddmParams : List Name := [cs!"min_num_instances", cs!"out_control_level", cs!"warning_level"]

/-- The attributes the constructor makes: `min_instances`, not `min_num_instances` (ddm.py 88-90). -/
def ddm (m w o : V) : Obj :=
  ⟨ddmParams, fun k =>
    if k = cs!"min_instances" then m
    else if k = cs!"warning_level" then w
    else if k = cs!"out_control_level" then o
    else .none⟩

/-- The settings `add_element` uses: ddm.py 143-158. -/
def ddmUses (x : Obj) : V × V × V :=
  (x.attr cs!"min_instances", x.attr cs!"warning_level", x.attr cs!"out_control_level")

theorem ddm_clean : ∀ k ∈ ddmParams, Clean k := by
  unfold Clean ddmParams
  decide +kernel

/-- C218 (violated): `set_params(min_num_instances=v)` of a DDM detector succeeds and `get_params` reports the new value,
but the detector goes on with the old one; and before, it reports `None` whatever the detector was made with. -/
theorem C218_ddm_violated (d : Nat) (h : Heap) (hn : Named h) (i : Nat) (m w o v : V) (hi : h i = ddm m w o) (valid : List (Name × V))
    (hg : getParams (d + 1) h i = some valid) :
    valid.lookup cs!"min_num_instances" = some .none ∧
    ∃ h', setParams (d + 1) h i [(cs!"min_num_instances", v)] = (h', none) ∧ (h' i).attr cs!"min_num_instances" = v ∧
      ddmUses (h' i) = (m, w, o) := by
  have hmem : cs!"min_num_instances" ∈ (h i).params := by rw [hi]; simp [ddm, ddmParams]
  constructor
  · rw [(C215_get _ h hn i valid hg).2 _ hmem, hi]
    simp only [ddm]
    rw [if_neg (by decide +kernel), if_neg (by decide +kernel), if_neg (by decide +kernel)]
  · obtain ⟨h', h1, h2, h3, h4, h5⟩ := C216_set_own _ h hn i valid hg [(cs!"min_num_instances", v)] (by simp)
      (by simpa using hmem)
    refine ⟨h', h1, h4 _ List.mem_cons_self, ?_⟩
    simp only [ddmUses]
    rw [h5 _ (by simp only [List.map_cons, List.map_nil, List.mem_singleton]; decide +kernel),
      h5 _ (by simp only [List.map_cons, List.map_nil, List.mem_singleton]; decide +kernel),
      h5 _ (by simp only [List.map_cons, List.map_nil, List.mem_singleton]; decide +kernel), hi]
    simp only [ddm]
    rw [if_neg (show ¬ (cs!"warning_level" = cs!"min_instances") by decide +kernel),
      if_neg (show ¬ (cs!"out_control_level" = cs!"min_instances") by decide +kernel),
      if_neg (show ¬ (cs!"out_control_level" = cs!"warning_level") by decide +kernel)]
    simp

/-- C218, partial: a parameter that is an attribute of its name is used with its new value. -/
theorem C218_used_partial (d : Nat) (h : Heap) (hn : Named h) (i : Nat) (m w o v : V) (hi : h i = ddm m w o) (valid : List (Name × V))
    (hg : getParams (d + 1) h i = some valid) :
    ∃ h', setParams (d + 1) h i [(cs!"warning_level", v)] = (h', none) ∧ ddmUses (h' i) = (m, v, o) := by
  have hmem : cs!"warning_level" ∈ (h i).params := by rw [hi]; simp [ddm, ddmParams]
  obtain ⟨h', h1, h2, h3, h4, h5⟩ := C216_set_own _ h hn i valid hg [(cs!"warning_level", v)] (by simp)
    (by simpa using hmem)
  refine ⟨h', h1, ?_⟩
  have h4 := h4 _ List.mem_cons_self
  simp only [ddmUses]
  simp only at h4
  rw [h5 _ (by simp only [List.map_cons, List.map_nil, List.mem_singleton]; decide +kernel), h4,
    h5 _ (by simp only [List.map_cons, List.map_nil, List.mem_singleton]; decide +kernel), hi]
  simp only [ddm]
  rw [if_neg (show ¬ (cs!"out_control_level" = cs!"min_instances") by decide +kernel),
    if_neg (show ¬ (cs!"out_control_level" = cs!"warning_level") by decide +kernel)]
  simp

/-! ### Examples -/

/-- An ensemble (0) of copies of a detector (1); another detector (2); all else has no parameters. -/
def exHeap : Heap := fun i =>
  if i = 0 then ⟨[cs!"base", cs!"n"], fun k => if k = cs!"base" then .ref 1 else if k = cs!"n" then .data 5 else .none⟩
  else if i = 1 then ddm (.data 30) (.data 2) (.data 3)
  else if i = 2 then ddm (.data 10) (.data 4) (.data 6)
  else ⟨[], fun _ => .none⟩

theorem exHeap_named : Named exHeap := by
  intro o
  simp only [exHeap]
  split
  · unfold Clean; decide +kernel
  · split
    · exact ddm_clean
    · split
      · exact ddm_clean
      · simp

-- the hypotheses of the theorems
example : getParams 2 exHeap 0 = some [(cs!"base__min_num_instances", .none), (cs!"base__out_control_level", .data 3),
    (cs!"base__warning_level", .data 2), (cs!"base", .ref 1), (cs!"n", .data 5)] := by decide +kernel

example : getParams 1 exHeap 1 = some [(cs!"min_num_instances", .none), (cs!"out_control_level", .data 3), (cs!"warning_level", .data 2)] ∧
    exHeap 1 = ddm (.data 30) (.data 2) (.data 3) := ⟨by decide +kernel, rfl⟩

-- replacing the detector and setting a parameter of it
example : ((setParams 2 exHeap 0 [(cs!"base__warning_level", .data 9), (cs!"base", .ref 2), (cs!"n", .data 7)]).2,
    getParams 2 (setParams 2 exHeap 0 [(cs!"base__warning_level", .data 9), (cs!"base", .ref 2), (cs!"n", .data 7)]).1 0) =
    (none, some [(cs!"base__min_num_instances", .none), (cs!"base__out_control_level", .data 6),
      (cs!"base__warning_level", .data 9), (cs!"base", .ref 2), (cs!"n", .data 7)]) := by decide +kernel

-- an unknown parameter after a good one; a nested parameter of plain data
example : (setParams 2 exHeap 0 [(cs!"n", .data 7), (cs!"m", .data 8)]).2 = some .valueError ∧
    ((setParams 2 exHeap 0 [(cs!"n", .data 7), (cs!"m", .data 8)]).1 0).attr cs!"n" = .data 7 ∧
    (setParams 2 exHeap 0 [(cs!"n__m", .data 7)]).2 = some .attributeError := by decide +kernel

-- a name ending with an underscore could not be used for a nested estimator
example : partition (cs!"base_" ++ ['_', '_'] ++ cs!"x") = (cs!"base", some cs!"_x") := by decide +kernel

end Verif.Core.Params
