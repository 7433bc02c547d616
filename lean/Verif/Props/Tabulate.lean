import Verif.Props.Summarise

/-!
# Tables of the modules used (C114, C115, C116, C117)
-/

set_option linter.unusedVariables false

namespace Verif.Props.Tabulate
open Verif Verif.Shapes Verif.Summarise Verif.Props.Summarise

variable {V E : Type}

/-! ### Specification vocabulary -/

/-- The columns with their headers and alignments, as documented. -/
def columnTable : List (String × String × String) :=
  [("module", "Module", "left"), ("config", "Config", "left"), ("owned_params", "Module params", "left"), ("input", "Input", "left"),
   ("output", "Output", "left"), ("params_size", "Param count", "right"), ("params_bytes", "Param bytes", "right")]

/-- The filters. -/
def filterNames : List String := ["has_output", "has_params"]

/-- A text of decimal digits read as a number. -/
def value (s : Str) : Nat := Nat.ofDigitChars 10 s 0

/-- The numbers of all parameters of a record together. -/
def count (r : Invocation V) : Nat := (r.details.params.map fun kv => kv.2.shape.prod).sum

/-- The bytes of all parameters of a record together. -/
def bytes (r : Invocation V) : Nat := (r.details.params.map fun kv => kv.2.shape.prod * kv.2.itemsize).sum

/-- How an active call is shown: the module's name, and its class with the method unless that is `__call__`. -/
def shown (env : Fixed) (sh : Show V) (d : Details) : Str :=
  env.name d.module ++ " (".toList ++ sh.className d.module ++ (if d.method = "__call__".toList then [] else '.' :: d.method) ++ [')']

/-- The text in a column for a record. -/
def Cell (env : Fixed) (sh : Show V) (column : String) (r : Invocation V) (text : Str) : Prop :=
  (column = "module" ∧ text = "\n └ ".toList.intercalate (r.callStack.map (shown env sh))) ∨
  (column = "config" ∧ text = sh.repr r.details.module) ∨
  (column = "owned_params" ∧ formatOwnedParams (env.name r.details.module) r.details = .ok text) ∨
  (column = "input" ∧ text = sh.input r.args) ∨
  (column = "output" ∧ text = sh.output r.output) ∨
  (column = "params_size" ∧ value (text.filter (· ≠ ',')) = count r) ∨
  (column = "params_bytes" ∧ text = formatBytes (bytes r))

/-- The record passes the filter. -/
def Keeps (sh : Show V) (filter : String) (r : Invocation V) : Prop :=
  (filter = "has_output" → sh.isNone r.output = false) ∧ (filter = "has_params" → r.details.params ≠ [])

instance (sh : Show V) (filter : String) (r : Invocation V) : Decidable (Keeps sh filter r) := inferInstanceAs (Decidable (_ ∧ _))

/-! ### Texts of active calls -/

theorem join_eq (sep : Str) : ∀ l, join sep l = sep.intercalate l
  | [] => rfl
  | [x] => by simp [join, List.intercalate]
  | x :: y :: xs => by
    rw [join, join_eq sep (y :: xs)]
    simp [List.intercalate, List.intersperse]

theorem callStack_eq (env : Fixed) (sh : Show V) (r : Invocation V) : formatCallStack env sh r = "\n └ ".toList.intercalate (r.callStack.map (shown env sh)) := by
  unfold formatCallStack
  rw [join_eq]
  refine congrArg _ (List.map_congr_left fun d _ => ?_)
  unfold formatEntry shown
  split
  · rw [List.append_nil]; rfl
  · simp

/-! ### Texts of numbers -/

theorem foldl_mul (l : List Nat) (a : Nat) : l.foldl (· * ·) a = a * l.prod := by
  induction l generalizing a with
  | nil => simp
  | cons x l ih => rw [List.foldl_cons, ih, List.prod_cons, Nat.mul_assoc]

theorem foldl_add (l : List Nat) (a : Nat) : l.foldl (· + ·) a = a + l.sum := by
  induction l generalizing a with
  | nil => simp
  | cons x l ih => rw [List.foldl_cons, ih, List.sum_cons, Nat.add_assoc]

theorem size_eq (a : ArraySpec) : a.size = a.shape.prod := by
  unfold ArraySpec.size
  rw [foldl_mul, Nat.one_mul]

theorem treeSize_eq (d : Dict Str ArraySpec) : treeSize d = (d.map fun kv => kv.2.shape.prod).sum := by
  unfold treeSize
  rw [foldl_add, Nat.zero_add]
  simp only [size_eq]

theorem treeBytes_eq (d : Dict Str ArraySpec) : treeBytes d = (d.map fun kv => kv.2.shape.prod * kv.2.itemsize).sum := by
  unfold treeBytes
  rw [foldl_add, Nat.zero_add]
  simp only [size_eq]

theorem digits_no (n : Nat) (c : Char) (hc : c.isDigit = false) : c ∉ natStr n := fun h => by
  have := Nat.isDigit_of_mem_toDigits (by decide) (by decide) h
  rw [hc] at this
  cases this

theorem commas_filter : ∀ (s : Str), ',' ∉ s → (commas s).filter (· ≠ ',') = s
  | a :: b :: c :: d :: rest, h => by
    have ih := commas_filter (d :: rest) fun h' => h (by simp only [List.mem_cons] at h' ⊢; exact .inr (.inr (.inr h')))
    have ha : a ≠ ',' := fun e => h (by simp [e])
    have hb : b ≠ ',' := fun e => h (by simp [e])
    have hc : c ≠ ',' := fun e => h (by simp [e])
    rw [commas, List.filter_cons_of_pos (by simpa using ha), List.filter_cons_of_pos (by simpa using hb), List.filter_cons_of_pos (by simpa using hc),
      List.filter_cons_of_neg (by simp), ih]
  | [], h => rfl
  | [a], h => by
    show List.filter _ [a] = [a]
    exact List.filter_eq_self.mpr fun x hx => decide_eq_true fun (e : x = ',') => h (e ▸ hx)
  | [a, b], h => by
    show List.filter _ [a, b] = [a, b]
    exact List.filter_eq_self.mpr fun x hx => decide_eq_true fun (e : x = ',') => h (e ▸ hx)
  | [a, b, c], h => by
    show List.filter _ [a, b, c] = [a, b, c]
    exact List.filter_eq_self.mpr fun x hx => decide_eq_true fun (e : x = ',') => h (e ▸ hx)

theorem thousands_filter (n : Nat) : (thousands n).filter (· ≠ ',') = natStr n := by
  unfold thousands
  rw [List.filter_reverse, commas_filter _ (by rw [List.mem_reverse]; exact digits_no n ',' (by decide)), List.reverse_reverse]

theorem value_natStr (n : Nat) : value (natStr n) = n := Nat.ofDigitChars_ten_toDigits

/-! ### The columns and filters -/

theorem toList_inj {a b : String} (h : a.toList = b.toList) : a = b := String.toList_inj.mp h

theorem get_cons {α : Type} (a name : String) (v : α) (d : Dict Str α) :
    Dict.get? ((a.toList, v) :: d) name.toList = if name = a then some v else Dict.get? d name.toList := by
  rw [Dict.get?_cons]
  by_cases h : name = a
  · rw [if_pos h, if_pos (by rw [h])]
  · rw [if_neg h, if_neg fun e => h (toList_inj e).symm]

theorem get_columns (env : Fixed) (sh : Show V) (name : String) : Dict.get? (allColumns env sh) name.toList =
    if name = "module" then some { header := "Module".toList, f := fun r => .ok (formatCallStack env sh r) } else
    if name = "config" then some { header := "Config".toList, f := fun r => .ok (sh.repr r.details.module) } else
    if name = "owned_params" then some { header := "Module params".toList, f := fun r => formatOwnedParams (env.name r.details.module) r.details } else
    if name = "input" then some { header := "Input".toList, f := fun r => .ok (sh.input r.args) } else
    if name = "output" then some { header := "Output".toList, f := fun r => .ok (sh.output r.output) } else
    if name = "params_size" then some { header := "Param count".toList, f := fun r => .ok (thousands (treeSize r.details.params)), align := "right".toList } else
    if name = "params_bytes" then some { header := "Param bytes".toList, f := fun r => .ok (formatBytes (treeBytes r.details.params)), align := "right".toList } else
    none := by
  unfold allColumns
  rw [get_cons, get_cons, get_cons, get_cons, get_cons, get_cons, get_cons, Dict.get?_nil]

theorem get_filters (sh : Show V) (name : String) : Dict.get? (allFilters sh) name.toList =
    if name = "has_output" then some (fun r => !sh.isNone r.output) else
    if name = "has_params" then some (fun r => !r.details.params.isEmpty) else none := by
  unfold allFilters
  rw [get_cons, get_cons, Dict.get?_nil]

/-- What a column is. -/
def IsColumn (env : Fixed) (sh : Show V) (name : String) (c : Column V) : Prop :=
  (name, String.ofList c.header, String.ofList c.align) ∈ columnTable ∧ ∀ r text, c.f r = .ok text → Cell env sh name r text

theorem column_spec {env : Fixed} {sh : Show V} {name : String} {c : Column V} (h : Dict.get? (allColumns env sh) name.toList = some c) :
    IsColumn env sh name c := by
  rw [get_columns] at h
  split at h
  · rename_i hn; cases h; exact ⟨by rw [hn]; simp only [String.ofList_toList]; decide, fun r t ht => .inl ⟨hn, by cases ht; exact callStack_eq env sh r⟩⟩
  split at h
  · rename_i hn; cases h; exact ⟨by rw [hn]; simp only [String.ofList_toList]; decide, fun r t ht => .inr (.inl ⟨hn, by cases ht; rfl⟩)⟩
  split at h
  · rename_i hn; cases h; exact ⟨by rw [hn]; simp only [String.ofList_toList]; decide, fun r t ht => .inr (.inr (.inl ⟨hn, ht⟩))⟩
  split at h
  · rename_i hn; cases h; exact ⟨by rw [hn]; simp only [String.ofList_toList]; decide, fun r t ht => .inr (.inr (.inr (.inl ⟨hn, by cases ht; rfl⟩)))⟩
  split at h
  · rename_i hn; cases h; exact ⟨by rw [hn]; simp only [String.ofList_toList]; decide, fun r t ht => .inr (.inr (.inr (.inr (.inl ⟨hn, by cases ht; rfl⟩))))⟩
  split at h
  · rename_i hn; cases h
    exact ⟨by rw [hn]; simp only [String.ofList_toList]; decide, fun r t ht => .inr (.inr (.inr (.inr (.inr (.inl ⟨hn, by
      cases ht; rw [thousands_filter, value_natStr, treeSize_eq]; rfl⟩)))))⟩
  split at h
  · rename_i hn; cases h
    exact ⟨by rw [hn]; simp only [String.ofList_toList]; decide, fun r t ht => .inr (.inr (.inr (.inr (.inr (.inr ⟨hn, by cases ht; rw [treeBytes_eq]; rfl⟩)))))⟩
  · cases h

theorem has_column {env : Fixed} {sh : Show V} {name : String} : Dict.has (allColumns env sh) name.toList = true ↔ name ∈ columnTable.map Prod.fst := by
  unfold Dict.has
  rw [get_columns]
  simp only [columnTable, List.map_cons, List.map_nil, List.mem_cons, List.not_mem_nil, or_false]
  split
  · simp [*]
  split
  · simp [*]
  split
  · simp [*]
  split
  · simp [*]
  split
  · simp [*]
  split
  · simp [*]
  split
  · simp [*]
  · simp [*]

theorem has_filter {sh : Show V} {name : String} : Dict.has (allFilters sh) name.toList = true ↔ name ∈ filterNames := by
  unfold Dict.has
  rw [get_filters]
  simp only [filterNames, List.mem_cons, List.not_mem_nil, or_false]
  split
  · simp [*]
  split
  · simp [*]
  · simp [*]

theorem filter_spec {sh : Show V} {name : String} {f : Invocation V → Bool} (h : Dict.get? (allFilters sh) name.toList = some f) (r : Invocation V) :
    f r = true ↔ Keeps sh name r := by
  rw [get_filters] at h
  unfold Keeps
  split at h
  · rename_i hn; cases h; subst hn; simp
  split at h
  · rename_i hn; cases h; subst hn; simp
  · cases h

/-! ### The rows -/

/-- The names asked for, all of them by default. -/
def wanted (all : List String) (names : Option (List String)) : List String := names.getD all

theorem row_spec {r : Invocation V} : ∀ {cs : List (Column V)} {ss : List Str}, row (some r) cs = .ok ss → List.Forall₂ (fun c s => c.f r = .ok s) cs ss
  | [], ss, h => by cases h; exact .nil
  | c :: cs, ss, h => by
    unfold row at h
    dsimp only at h
    cases hc : c.f r with
    | error e => rw [hc] at h; cases h
    | ok t =>
      rw [hc] at h
      dsimp only at h
      cases hr : row (some r) cs with
      | error e => rw [hr] at h; cases h
      | ok ts =>
        rw [hr] at h
        cases h
        exact .cons hc (row_spec hr)

theorem loop_spec {cs : List (Column V)} {fs : List (Invocation V → Bool)} : ∀ {rs : List (Invocation V)} {acc rows : List (List Str)},
    rowLoop cs fs (rs.map some) acc = .ok rows →
      ∃ xs, rows = acc ++ xs ∧ List.Forall₂ (fun r x => List.Forall₂ (fun c s => c.f r = .ok s) cs x) (rs.filter fun r => fs.all fun f => f r) xs
  | [], acc, rows, h => by cases h; exact ⟨[], (List.append_nil _).symm, .nil⟩
  | r :: rs, acc, rows, h => by
    rw [List.map_cons] at h
    unfold rowLoop passes at h
    dsimp only at h
    rw [List.filter_cons]
    cases hp : fs.all fun f => f r with
    | false =>
      rw [hp] at h
      exact loop_spec h
    | true =>
      rw [hp] at h
      dsimp only at h
      cases hr : row (some r) cs with
      | error e => rw [hr] at h; cases h
      | ok x =>
        rw [hr] at h
        dsimp only at h
        obtain ⟨xs, h1, h2⟩ := loop_spec h
        exact ⟨x :: xs, by rw [h1, List.append_assoc]; rfl, .cons (row_spec hr) h2⟩

theorem filterMap_spec {α : Type} {d : Dict Str α} : ∀ {names : List String}, (∀ n ∈ names, Dict.has d n.toList = true) →
    List.Forall₂ (fun n c => Dict.get? d n.toList = some c) names ((names.map String.toList).filterMap fun n => Dict.get? d n)
  | [], h => .nil
  | n :: names, h => by
    obtain ⟨c, hc⟩ := Option.isSome_iff_exists.mp (h n List.mem_cons_self)
    rw [List.map_cons, List.filterMap_cons_some hc]
    exact .cons hc (filterMap_spec fun m hm => h m (List.mem_cons_of_mem _ hm))

theorem columns_default (env : Fixed) (sh : Show V) (names : Option (List String)) :
    (names.map (List.map String.toList)).getD ((allColumns env sh).map Prod.fst) = (wanted (columnTable.map Prod.fst) names).map String.toList := by
  cases names <;> rfl

theorem filters_default (sh : Show V) (names : Option (List String)) :
    (names.map (List.map String.toList)).getD ((allFilters sh).map Prod.fst) = (wanted filterNames names).map String.toList := by
  cases names <;> rfl

theorem any_iff {α : Type} {d : Dict Str α} {names : List String} :
    ((names.map String.toList).any fun c => !Dict.has d c) = true ↔ ∃ n ∈ names, Dict.has d n.toList = false := by
  rw [List.any_eq_true]
  constructor
  · rintro ⟨x, hx, h⟩
    obtain ⟨n, hn, rfl⟩ := List.mem_map.mp hx
    exact ⟨n, hn, by simpa using h⟩
  · rintro ⟨n, hn, h⟩
    exact ⟨_, List.mem_map.mpr ⟨n, hn, rfl⟩, by rw [h]; rfl⟩

/-- C114 `tabulate` rejects names that are no columns or no filters, as soon as it is called, and nothing else. -/
theorem tabulate_rejects (env : Fixed) (sh : Show V) (columns filters : Option (List String)) :
    (tabulate env sh (columns.map (List.map String.toList)) (filters.map (List.map String.toList))).isOk = false ↔
      (∃ c ∈ wanted (columnTable.map Prod.fst) columns, c ∉ columnTable.map Prod.fst) ∨ ∃ f ∈ wanted filterNames filters, f ∉ filterNames := by
  have e1 : ∀ n : String, Dict.has (allColumns env sh) n.toList = false ↔ n ∉ columnTable.map Prod.fst := fun n => by
    rw [← has_column (env := env) (sh := sh)]; simp
  have e2 : ∀ n : String, Dict.has (allFilters sh) n.toList = false ↔ n ∉ filterNames := fun n => by
    rw [← has_filter (sh := sh)]; simp
  unfold tabulate
  dsimp only
  rw [columns_default, filters_default]
  by_cases h1 : ((wanted (columnTable.map Prod.fst) columns).map String.toList).any (fun c => !Dict.has (allColumns env sh) c) = true
  · rw [if_pos h1]
    obtain ⟨n, hn, h⟩ := any_iff.mp h1
    exact ⟨fun _ => .inl ⟨n, hn, (e1 n).mp h⟩, fun _ => rfl⟩
  · rw [if_neg h1]
    have h1' : ¬ ∃ c ∈ wanted (columnTable.map Prod.fst) columns, c ∉ columnTable.map Prod.fst :=
      fun ⟨n, hn, h⟩ => h1 (any_iff.mpr ⟨n, hn, (e1 n).mpr h⟩)
    by_cases h2 : ((wanted filterNames filters).map String.toList).any (fun c => !Dict.has (allFilters sh) c) = true
    · rw [if_pos h2]
      obtain ⟨n, hn, h⟩ := any_iff.mp h2
      exact ⟨fun _ => .inr ⟨n, hn, (e2 n).mp h⟩, fun _ => rfl⟩
    · rw [if_neg h2]
      refine ⟨fun h => absurd h (by simp [Except.isOk, Except.toBool]), fun h => ?_⟩
      rcases h with h | ⟨n, hn, h⟩
      · exact absurd h h1'
      · exact absurd (any_iff.mpr ⟨n, hn, (e2 n).mpr h⟩) h2

theorem tabulate_ok {env : Fixed} {sh : Show V} {columns filters : Option (List String)} {g : List (Option (Invocation V)) → Except Err Summary}
    (h : tabulate env sh (columns.map (List.map String.toList)) (filters.map (List.map String.toList)) = .ok g) :
    ∃ cs fs, g = generateSummary cs fs ∧
      List.Forall₂ (fun n c => Dict.get? (allColumns env sh) n.toList = some c) (wanted (columnTable.map Prod.fst) columns) cs ∧
      List.Forall₂ (fun n f => Dict.get? (allFilters sh) n.toList = some f) (wanted filterNames filters) fs := by
  unfold tabulate at h
  dsimp only at h
  rw [columns_default, filters_default] at h
  by_cases h1 : ((wanted (columnTable.map Prod.fst) columns).map String.toList).any (fun c => !Dict.has (allColumns env sh) c) = true
  · rw [if_pos h1] at h; cases h
  rw [if_neg h1] at h
  by_cases h2 : ((wanted filterNames filters).map String.toList).any (fun c => !Dict.has (allFilters sh) c) = true
  · rw [if_pos h2] at h; cases h
  rw [if_neg h2] at h
  refine ⟨_, _, (Except.ok.inj h).symm, filterMap_spec fun n hn => ?_, filterMap_spec fun n hn => ?_⟩
  · exact Decidable.byContradiction fun hc => h1 (any_iff.mpr ⟨n, hn, by simpa using hc⟩)
  · exact Decidable.byContradiction fun hc => h2 (any_iff.mpr ⟨n, hn, by simpa using hc⟩)

theorem all_keeps {sh : Show V} {names : List String} {fs : List (Invocation V → Bool)}
    (h : List.Forall₂ (fun n f => Dict.get? (allFilters sh) n.toList = some f) names fs) (r : Invocation V) :
    (fs.all fun f => f r) = true ↔ ∀ n ∈ names, Keeps sh n r := by
  induction h with
  | nil => simp
  | cons h1 _ ih => rw [List.all_cons, Bool.and_eq_true, ih, filter_spec h1, List.forall_mem_cons]

theorem row_cells {env : Fixed} {sh : Show V} {names : List String} {cs : List (Column V)} {ss : List Str} {r : Invocation V}
    (h : List.Forall₂ (fun n c => Dict.get? (allColumns env sh) n.toList = some c) names cs) (hs : List.Forall₂ (fun c s => c.f r = .ok s) cs ss) :
    List.Forall₂ (fun n s => Cell env sh n r s) names ss := by
  induction h generalizing ss with
  | nil => cases hs; exact .nil
  | cons h1 _ ih =>
    cases hs with
    | cons h2 h3 => exact .cons ((column_spec h1).2 r _ h2) (ih h3)

theorem headers_spec {env : Fixed} {sh : Show V} {names : List String} {cs : List (Column V)}
    (h : List.Forall₂ (fun n c => Dict.get? (allColumns env sh) n.toList = some c) names cs) :
    List.Forall₂ (fun n ha => (n, String.ofList ha.1, String.ofList ha.2) ∈ columnTable) names ((cs.map (·.header)).zip (cs.map (·.align))) := by
  induction h with
  | nil => exact .nil
  | cons h1 _ ih => exact .cons (column_spec h1).1 ih

/-- C114 the table has the columns that were asked for, in that order, with their headers and alignments, and one row for every record that
passes all filters, in order; when none passes, the text says that no modules match. -/
theorem tabulate_rows {env : Fixed} {sh : Show V} {columns filters : Option (List String)} {g : List (Option (Invocation V)) → Except Err Summary}
    (h : tabulate env sh (columns.map (List.map String.toList)) (filters.map (List.map String.toList)) = .ok g)
    {rs : List (Invocation V)} {s : Summary} (hs : g (rs.map some) = .ok s) :
    (s = .noModules ∧ ∀ r ∈ rs, ¬ ∀ f ∈ wanted filterNames filters, Keeps sh f r) ∨
    ∃ headers aligns rows, s = .table headers aligns rows ∧ rows ≠ [] ∧ headers.length = aligns.length ∧
      List.Forall₂ (fun n ha => (n, String.ofList ha.1, String.ofList ha.2) ∈ columnTable) (wanted (columnTable.map Prod.fst) columns) (headers.zip aligns) ∧
      List.Forall₂ (fun r row => List.Forall₂ (fun n text => Cell env sh n r text) (wanted (columnTable.map Prod.fst) columns) row)
        (rs.filter fun r => ∀ f ∈ wanted filterNames filters, Keeps sh f r) rows := by
  obtain ⟨cs, fs, rfl, hc, hf⟩ := tabulate_ok h
  unfold generateSummary at hs
  cases hl : rowLoop cs fs (rs.map some) [] with
  | error e => rw [hl] at hs; cases hs
  | ok rows =>
    rw [hl] at hs
    dsimp only at hs
    obtain ⟨xs, h1, h2⟩ := loop_spec hl
    rw [List.nil_append] at h1
    subst h1
    have hk : (rs.filter fun r => fs.all fun f => f r) = rs.filter fun r => ∀ f ∈ wanted filterNames filters, Keeps sh f r :=
      List.filter_congr fun r _ => by rw [Bool.eq_iff_iff, all_keeps hf, decide_eq_true_iff]
    rw [hk] at h2
    cases rows with
    | nil =>
      cases hs
      refine .inl ⟨rfl, fun r hr hkeep => ?_⟩
      have : r ∈ rs.filter fun r => ∀ f ∈ wanted filterNames filters, Keeps sh f r := List.mem_filter.mpr ⟨hr, decide_eq_true hkeep⟩
      rw [List.forall₂_nil_right_iff.mp h2] at this
      cases this
    | cons x xs =>
      cases hs
      refine .inr ⟨_, _, _, rfl, by simp, by simp, headers_spec hc, h2.imp fun r row hr => row_cells hc hr⟩

/-! ### The parameters a module owns (C115) -/

theorem takeWhile_append {α : Type} (p : α → Bool) : ∀ (a : List α) (x : α) (b : List α), (∀ y ∈ a, p y = true) → p x = false →
    (a ++ x :: b).takeWhile p = a ∧ (a ++ x :: b).dropWhile p = x :: b
  | [], x, b, _, hx => by simp [hx]
  | y :: a, x, b, h, hx => by
    have := takeWhile_append p a x b (fun z hz => h z (List.mem_cons_of_mem _ hz)) hx
    rw [List.cons_append, List.takeWhile_cons, List.dropWhile_cons, h y List.mem_cons_self]
    exact ⟨congrArg _ this.1, this.2⟩

theorem rsplit_plain {b n : Str} (h : '/' ∉ n) : rsplitSlash (b ++ '/' :: n) = some (b, n) := by
  have e : (b ++ '/' :: n).reverse = n.reverse ++ '/' :: b.reverse := by simp
  obtain ⟨h1, h2⟩ := takeWhile_append (· ≠ '/') n.reverse '/' b.reverse
    (fun y hy => decide_eq_true fun (e : y = '/') => h (by rw [← e]; exact List.mem_reverse.mp hy)) (by simp)
  unfold rsplitSlash
  dsimp only
  rw [e, h1, h2]
  simp

theorem dropWhile_ne {α : Type} (p : α → Bool) (x : α) (hx : p x = false) : ∀ (l : List α), x ∈ l → l.dropWhile p ≠ []
  | y :: l, h => by
    rw [List.dropWhile_cons]
    cases hy : p y with
    | false => simp
    | true =>
      rcases List.mem_cons.mp h with rfl | h
      · rw [hx] at hy; cases hy
      · exact dropWhile_ne p x hx l h

theorem rsplit_some {s : Str} (h : '/' ∈ s) : ∃ p, rsplitSlash s = some p := by
  unfold rsplitSlash
  dsimp only
  cases hd : s.reverse.dropWhile (· ≠ '/') with
  | nil => exact absurd hd (dropWhile_ne _ '/' (by simp) _ (List.mem_reverse.mpr h))
  | cons c rest => exact ⟨_, rfl⟩

theorem owned_total (m : Str) : ∀ (ps out : Dict Str ArraySpec), (∀ kv ∈ ps, '/' ∈ kv.1) → ∃ d, ownedParams m ps out = .ok d
  | [], out, h => ⟨out, rfl⟩
  | (fq, p) :: ps, out, h => by
    obtain ⟨⟨mod, name⟩, hs⟩ := rsplit_some (h (fq, p) List.mem_cons_self)
    have ih := fun out => owned_total m ps out fun kv hkv => h kv (List.mem_cons_of_mem _ hkv)
    unfold ownedParams
    rw [hs]
    dsimp only
    by_cases hm : mod = m
    · rw [if_pos hm]; exact ih _
    · rw [if_neg hm]; exact ih _

theorem owned_items (m : Str) : ∀ (l : List (Str × Str × ArraySpec)) (out : Dict Str ArraySpec), (∀ t ∈ l, '/' ∉ t.2.1) →
    ownedParams m (l.map fun t => (t.1 ++ '/' :: t.2.1, t.2.2)) out =
      .ok (((l.filter fun t => t.1 = m).map fun t => t.2).foldl (fun d p => d.set p.1 p.2) out)
  | [], out, h => rfl
  | (b, n, x) :: l, out, h => by
    have ih := fun out => owned_items m l out fun t ht => h t (List.mem_cons_of_mem _ ht)
    rw [List.map_cons]
    unfold ownedParams
    rw [rsplit_plain (h (b, n, x) List.mem_cons_self)]
    dsimp only
    rw [List.filter_cons]
    by_cases hm : b = m
    · rw [if_pos hm, if_pos (decide_eq_true hm)]; exact ih _
    · rw [if_neg hm, if_neg (by simpa using hm)]; exact ih _

/-- The items of the selected bundles, with their bundles. -/
def triples (n : Str) (subs : List Str) (d : Dict Str (Dict Str ArraySpec)) : List (Str × Str × ArraySpec) :=
  (d.filter fun p => Frame.belongs n subs p.1).flatMap fun p => p.2.map fun q => (p.1, q.1, q.2)

theorem flat_triples (n : Str) (subs : List Str) (d : Dict Str (Dict Str ArraySpec)) :
    Submodules.flat n subs d = (triples n subs d).map fun t => (t.1 ++ '/' :: t.2.1, t.2.2) := by
  unfold Submodules.flat triples
  rw [List.map_flatMap]
  congr 1
  funext p
  rw [List.map_map]
  rfl

theorem mem_triples {n : Str} {subs : List Str} {d : Dict Str (Dict Str ArraySpec)} {b k : Str} {x : ArraySpec} :
    (b, k, x) ∈ triples n subs d ↔ Frame.belongs n subs b = true ∧ ∃ i, (b, i) ∈ d ∧ (k, x) ∈ i := by
  unfold triples
  simp only [List.mem_flatMap, List.mem_filter, List.mem_map]
  constructor
  · rintro ⟨p, ⟨hp, hb⟩, q, hq, e⟩
    cases e
    exact ⟨hb, p.2, hp, hq⟩
  · rintro ⟨hb, i, hi, hk⟩
    exact ⟨(b, i), ⟨hi, hb⟩, (k, x), hk, rfl⟩

theorem owned_record {name : Str} {subs : List Str} {d : Dict Str (Dict Str ArraySpec)} (hd : WF2 d) (hp : Submodules.PlainNames d) :
    ∃ l, ownedParams name (Frame.paramsOrStateDict name subs d) [] = .ok l ∧ (l.map Prod.fst).Nodup ∧
      ∀ n x, (n, x) ∈ l ↔ ∃ i, (name, i) ∈ d ∧ (n, x) ∈ i := by
  have hn := Submodules.nodup_flat (n := name) (subs := subs) hd hp
  rw [Submodules.dict_eq, Dict.ofItems_of_nodup hn, flat_triples, owned_items name _ _ fun t ht => by
    obtain ⟨_, i, hi, hk⟩ := mem_triples.mp (show (t.1, t.2.1, t.2.2) ∈ _ from ht)
    exact hp _ hi _ hk]
  have hnd : ((((triples name subs d).filter fun t => t.1 = name).map fun t => t.2).map Prod.fst).Nodup := by
    rw [flat_triples, List.map_map] at hn
    have h1 := (List.filter_sublist (p := fun t : Str × Str × ArraySpec => decide (t.1 = name)) (l := triples name subs d)).map
      (Prod.fst ∘ fun t : Str × Str × ArraySpec => (t.1 ++ '/' :: t.2.1, t.2.2))
    have h2 := h1.nodup hn
    rw [List.map_map]
    unfold List.Nodup at h2 ⊢
    rw [List.pairwise_map] at h2 ⊢
    refine h2.imp_of_mem fun {a b} ha hb hab e => hab ?_
    have ea : a.1 = name := by simpa using (List.mem_filter.mp ha).2
    have eb : b.1 = name := by simpa using (List.mem_filter.mp hb).2
    show a.1 ++ '/' :: a.2.1 = b.1 ++ '/' :: b.2.1
    rw [ea, eb, show a.2.1 = b.2.1 from e]
  have e := Dict.ofItems_of_nodup hnd
  unfold Dict.ofItems at e
  refine ⟨_, rfl, by rw [e]; exact hnd, fun n x => ?_⟩
  rw [e, List.mem_map]
  constructor
  · rintro ⟨t, ht, et⟩
    obtain ⟨ht, hm⟩ := List.mem_filter.mp ht
    have hm : t.1 = name := by simpa using hm
    obtain ⟨_, i, hi, hk⟩ := mem_triples.mp (show (t.1, t.2.1, t.2.2) ∈ _ from ht)
    exact ⟨i, by rw [← hm]; exact hi, by rw [← et]; exact hk⟩
  · rintro ⟨i, hi, hk⟩
    refine ⟨(name, n, x), List.mem_filter.mpr ⟨mem_triples.mpr ⟨?_, i, hi, hk⟩, by simp⟩, rfl⟩
    rw [Submodules.belongs_iff]
    exact .inl rfl

theorem strLe_iff : ∀ (a b : Str), strLe a b = true ↔ a.map Char.toNat ≤ b.map Char.toNat
  | [], b => by simp [strLe]
  | _ :: _, [] => by simp [strLe]
  | a :: as, b :: bs => by
    unfold strLe
    rw [List.map_cons, List.map_cons, List.cons_le_cons_iff]
    by_cases h1 : a.toNat < b.toNat
    · rw [if_pos h1]; simp [h1]
    · rw [if_neg h1]
      by_cases h2 : b.toNat < a.toNat
      · rw [if_pos h2]
        simp only [Bool.false_eq_true, false_iff, not_or, not_and]
        exact ⟨h1, fun e => by omega⟩
      · rw [if_neg h2, strLe_iff as bs]
        have e : a.toNat = b.toNat := by omega
        simp [e]

/-- Larger arrays first, then by name (by code points). -/
def Before (a b : Str × ArraySpec) : Prop :=
  b.2.shape.prod < a.2.shape.prod ∨ (b.2.shape.prod = a.2.shape.prod ∧ a.1.map Char.toNat ≤ b.1.map Char.toNat)

theorem le_iff (a b : Str × ArraySpec) : sizeDescThenName a b = true ↔ Before a b := by
  unfold sizeDescThenName Before
  rw [size_eq, size_eq]
  by_cases h1 : b.2.shape.prod < a.2.shape.prod
  · rw [if_pos h1]; simp [h1]
  · rw [if_neg h1]
    by_cases h2 : a.2.shape.prod < b.2.shape.prod
    · rw [if_pos h2]
      simp only [Bool.false_eq_true, false_iff, not_or, not_and]
      exact ⟨h1, fun e => by omega⟩
    · rw [if_neg h2, strLe_iff]
      have e : b.2.shape.prod = a.2.shape.prod := by omega
      simp [e]

theorem before_trans {a b c : Str × ArraySpec} (h1 : Before a b) (h2 : Before b c) : Before a c := by
  unfold Before at *
  rcases h1 with h1 | ⟨h1, l1⟩ <;> rcases h2 with h2 | ⟨h2, l2⟩
  · exact .inl (by omega)
  · exact .inl (by omega)
  · exact .inl (by omega)
  · exact .inr ⟨by omega, List.le_trans l1 l2⟩

theorem before_total (a b : Str × ArraySpec) : Before a b ∨ Before b a := by
  unfold Before
  rcases Nat.lt_trichotomy a.2.shape.prod b.2.shape.prod with h | h | h
  · exact .inr (.inl h)
  · rcases List.le_total (a.1.map Char.toNat) (b.1.map Char.toNat) with l | l
    · exact .inl (.inr ⟨h.symm, l⟩)
    · exact .inr (.inr ⟨h, l⟩)
  · exact .inl (.inl h)

theorem insert_perm (x : Str × ArraySpec) : ∀ l, (insertSorted x l).Perm (x :: l)
  | [] => .refl _
  | y :: ys => by
    unfold insertSorted
    by_cases h : sizeDescThenName x y = true
    · rw [if_pos h]
    · rw [if_neg h]
      exact ((insert_perm x ys).cons y).trans (.swap x y ys)

theorem insert_sorted (x : Str × ArraySpec) : ∀ l, l.Pairwise Before → (insertSorted x l).Pairwise Before
  | [], _ => by simp [insertSorted]
  | y :: ys, h => by
    rw [List.pairwise_cons] at h
    unfold insertSorted
    by_cases hx : sizeDescThenName x y = true
    · rw [if_pos hx]
      rw [le_iff] at hx
      rw [List.pairwise_cons, List.pairwise_cons]
      refine ⟨fun z hz => ?_, h⟩
      rcases List.mem_cons.mp hz with rfl | hz
      · exact hx
      · exact before_trans hx (h.1 z hz)
    · rw [if_neg hx]
      rw [le_iff] at hx
      rw [List.pairwise_cons]
      refine ⟨fun z hz => ?_, insert_sorted x ys h.2⟩
      rcases List.mem_cons.mp ((insert_perm x ys).mem_iff.mp hz) with rfl | hz
      · exact (before_total _ _).resolve_left hx
      · exact h.1 z hz

theorem sort_spec : ∀ l, (sortParams l).Perm l ∧ (sortParams l).Pairwise Before
  | [] => ⟨.refl _, .nil⟩
  | x :: xs => by
    obtain ⟨h1, h2⟩ := sort_spec xs
    exact ⟨(insert_perm x _).trans (h1.cons x), insert_sorted x _ h2⟩

/-- C115 the column of owned parameters has one line for every parameter that belongs to the module itself, and no other, the larger arrays first,
those of the same size by name.  Missing from the full statement: parameters with a slash in their name, for which it fails (`owned_slash`). -/
theorem owned_params_partial {env : Fixed} {init apply : Except E Unit} {calls : List (Call V)} {used : List (Option (Invocation V))}
    (h : evalSummary env init calls apply = .ok used) {r : Invocation V} (hr : some r ∈ used) (hd : WF2 env.params)
    (hp : Submodules.PlainNames env.params) :
    ∃ l : List (Str × ArraySpec), formatOwnedParams (env.name r.details.module) r.details =
        .ok (['\n'].intercalate (l.map fun kv => kv.1 ++ ": ".toList ++ formatArray kv.2)) ∧
      (∀ n x, (n, x) ∈ l ↔ ∃ i, (env.name r.details.module, i) ∈ env.params ∧ (n, x) ∈ i) ∧ (l.map Prod.fst).Nodup ∧ l.Pairwise Before := by
  obtain ⟨i, hi⟩ := List.mem_iff_getElem?.mp hr
  have hg := summary_good h
  have hlen := hg.length_eq
  obtain ⟨e, he⟩ : ∃ e, (expected env.name calls)[i]? = some e := by
    have := (List.getElem?_eq_some_iff.mp hi).1
    exact ⟨_, List.getElem?_eq_getElem (by omega)⟩
  obtain ⟨hs, hh⟩ := forall₂_get hg i _ _ hi he
  cases e with
  | none => exact absurd hs id
  | some e =>
    obtain ⟨subs, h1, _⟩ := hh
    obtain ⟨l, h2, h3, h4⟩ := owned_record (name := env.name e.module) (subs := subs) hd hp
    have hm : r.details.module = e.module := hs.1
    refine ⟨sortParams l, ?_, fun n x => ?_, ((sort_spec l).1.map _).nodup_iff.mpr h3, (sort_spec l).2⟩
    · unfold formatOwnedParams
      rw [hm, h1, h2]
      exact congrArg Except.ok (join_eq _ _)
    · rw [(sort_spec l).1.mem_iff, hm]
      exact h4 n x

/-! ### Summaries with gaps -/

theorem row_total {r : Invocation V} : ∀ {cs : List (Column V)}, (∀ c ∈ cs, ∃ s, c.f r = .ok s) → ∃ ss, row (some r) cs = .ok ss
  | [], _ => ⟨[], rfl⟩
  | c :: cs, h => by
    obtain ⟨s, hs⟩ := h c List.mem_cons_self
    obtain ⟨ss, hss⟩ := row_total fun c hc => h c (List.mem_cons_of_mem _ hc)
    exact ⟨s :: ss, by unfold row; dsimp only; rw [hs]; dsimp only; rw [hss]⟩

theorem loop_total {cs : List (Column V)} {fs : List (Invocation V → Bool)} : ∀ {used : List (Option (Invocation V))} (acc : List (List Str)),
    (∀ r, some r ∈ used → ∀ c ∈ cs, ∃ s, c.f r = .ok s) →
    (none ∉ used → ∃ rows, rowLoop cs fs used acc = .ok rows) ∧
    (none ∈ used → cs ≠ [] ∨ fs ≠ [] → rowLoop cs fs used acc = .error .attribute)
  | [], acc, h => ⟨fun _ => ⟨acc, rfl⟩, fun h => by cases h⟩
  | none :: used, acc, h => by
    refine ⟨fun h => absurd List.mem_cons_self h, fun _ hne => ?_⟩
    unfold rowLoop passes
    cases fs with
    | cons f fs => rfl
    | nil =>
      cases cs with
      | nil => exact absurd hne (by simp)
      | cons c cs => rfl
  | some r :: used, acc, h => by
    have ih := fun acc => loop_total (cs := cs) (fs := fs) (used := used) acc fun r hr => h r (List.mem_cons_of_mem _ hr)
    obtain ⟨ss, hss⟩ := row_total (h r List.mem_cons_self)
    have step : ∃ acc', rowLoop cs fs (some r :: used) acc = rowLoop cs fs used acc' := by
      cases hp : fs.all fun f => f r with
      | false => exact ⟨acc, by conv => lhs; unfold rowLoop passes; dsimp only; rw [hp]⟩
      | true => exact ⟨acc ++ [ss], by conv => lhs; unfold rowLoop passes; dsimp only; rw [hp]; dsimp only; rw [hss]⟩
    obtain ⟨acc', e⟩ := step
    rw [e]
    have hn : none ∈ some r :: used ↔ none ∈ used := by simp
    rw [hn]
    exact ih acc'

theorem columns_total {env : Fixed} {init apply : Except E Unit} {calls : List (Call V)} {used : List (Option (Invocation V))}
    (h : evalSummary env init calls apply = .ok used) {r : Invocation V} (hr : some r ∈ used) {sh : Show V} {names : List String} {cs : List (Column V)}
    (hc : List.Forall₂ (fun n c => Dict.get? (allColumns env sh) n.toList = some c) names cs) : ∀ c ∈ cs, ∃ s, c.f r = .ok s := by
  have ho : ∃ s, formatOwnedParams (env.name r.details.module) r.details = .ok s := by
    obtain ⟨i, hi⟩ := List.mem_iff_getElem?.mp hr
    have hg := summary_good h
    have hlen := hg.length_eq
    obtain ⟨e, he⟩ : ∃ e, (expected env.name calls)[i]? = some e := by
      have := (List.getElem?_eq_some_iff.mp hi).1
      exact ⟨_, List.getElem?_eq_getElem (by omega)⟩
    obtain ⟨hs, hh⟩ := forall₂_get hg i _ _ hi he
    cases e with
    | none => exact absurd hs id
    | some e =>
      obtain ⟨d, hd⟩ := owned_total (env.name r.details.module) r.details.params [] fun kv hkv => by
        obtain ⟨b, d, n, _, _, ek, _⟩ := params_sound h hi he (k := kv.1) (x := kv.2) hkv
        rw [ek]
        simp
      exact ⟨_, by unfold formatOwnedParams; rw [hd]; rfl⟩
  induction hc with
  | nil => simp
  | @cons n c _ _ h1 _ ih =>
    intro c' hc'
    rcases List.mem_cons.mp hc' with rfl | hc'
    · rw [get_columns] at h1
      split at h1
      · cases h1; exact ⟨_, rfl⟩
      split at h1
      · cases h1; exact ⟨_, rfl⟩
      split at h1
      · cases h1; exact ho
      split at h1
      · cases h1; exact ⟨_, rfl⟩
      split at h1
      · cases h1; exact ⟨_, rfl⟩
      split at h1
      · cases h1; exact ⟨_, rfl⟩
      split at h1
      · cases h1; exact ⟨_, rfl⟩
      · cases h1
    · exact ih c' hc'

/-- C114 the table of a function none of whose calls of methods raises is always produced.  Missing from the full statement: functions
that catch an exception of a method, for which it fails (`tabulate_fails`). -/
theorem tabulate_total_partial {env : Fixed} {init apply : Except E Unit} {calls : List (Call V)} {used : List (Option (Invocation V))}
    (h : evalSummary env init calls apply = .ok used) (hf : ¬ ∃ c ∈ calls, Fails c) {sh : Show V} {columns filters : Option (List String)}
    {g : List (Option (Invocation V)) → Except Err Summary}
    (hg : tabulate env sh (columns.map (List.map String.toList)) (filters.map (List.map String.toList)) = .ok g) : ∃ s, g used = .ok s := by
  obtain ⟨cs, fs, rfl, hc, _⟩ := tabulate_ok hg
  obtain ⟨rows, hl⟩ := (loop_total (cs := cs) (fs := fs) (used := used) [] fun r hr => columns_total h hr hc).1 (fun hn => hf ((gap_iff h).mp hn))
  unfold generateSummary
  rw [hl]
  dsimp only
  split <;> exact ⟨_, rfl⟩

/-- C114 fails for every function that catches an exception raised by a method: making the table raises an `AttributeError`, whatever filters and
columns are asked for, unless there are neither. -/
theorem tabulate_fails {env : Fixed} {init apply : Except E Unit} {calls : List (Call V)} {used : List (Option (Invocation V))}
    (h : evalSummary env init calls apply = .ok used) (hf : ∃ c ∈ calls, Fails c) {sh : Show V} {columns filters : Option (List String)}
    (hne : wanted (columnTable.map Prod.fst) columns ≠ [] ∨ wanted filterNames filters ≠ []) {g : List (Option (Invocation V)) → Except Err Summary}
    (hg : tabulate env sh (columns.map (List.map String.toList)) (filters.map (List.map String.toList)) = .ok g) : g used = .error .attribute := by
  obtain ⟨cs, fs, rfl, hc, hfs⟩ := tabulate_ok hg
  have := (loop_total (cs := cs) (fs := fs) (used := used) [] fun r hr => columns_total h hr hc).2 ((gap_iff h).mpr hf) (by
    rcases hne with hne | hne
    · refine .inl fun e => hne ?_
      rw [e] at hc
      exact List.forall₂_nil_right_iff.mp hc
    · refine .inr fun e => hne ?_
      rw [e] at hfs
      exact List.forall₂_nil_right_iff.mp hfs)
  unfold generateSummary
  rw [this]

/-! ### Numbers of bytes (C116) -/

/-- The units. -/
def unit (k : Nat) : String := ["B", "KB", "MB", "GB", "TB"].getD k ""

theorem round_spec (n d : Nat) (hd : 0 < d) : 2 * (roundHalfEven n d * d) ≤ 2 * n + d ∧ 2 * n ≤ 2 * (roundHalfEven n d * d) + d ∧
    (2 * (roundHalfEven n d * d) = 2 * n + d ∨ 2 * n = 2 * (roundHalfEven n d * d) + d → roundHalfEven n d % 2 = 0) := by
  have e := Nat.div_add_mod n d
  have hlt := Nat.mod_lt n hd
  rw [Nat.mul_comm] at e
  unfold roundHalfEven
  dsimp only
  generalize n / d = q at *
  generalize n % d = r at *
  by_cases h1 : 2 * r < d
  · rw [if_pos h1]; exact ⟨by omega, by omega, by omega⟩
  · rw [if_neg h1]
    by_cases h2 : d < 2 * r
    · rw [if_pos h2, Nat.add_mul, Nat.one_mul]; exact ⟨by omega, by omega, by omega⟩
    · rw [if_neg h2]
      by_cases h3 : q % 2 = 0
      · rw [if_pos h3]; exact ⟨by omega, by omega, fun _ => h3⟩
      · rw [if_neg h3, Nat.add_mul, Nat.one_mul]; exact ⟨by omega, by omega, by omega⟩

theorem scale_spec (n : Nat) : ∃ k, scaleBytes n 0 "B" ["KB", "MB", "GB", "TB"] = (k, unit k) ∧ k ≤ 4 ∧ (k = 0 ∨ 1000 ^ k ≤ n) ∧ (k = 4 ∨ n < 1000 ^ (k + 1)) := by
  simp only [scaleBytes]
  split
  · split
    · split
      · split
        · exact ⟨4, rfl, by decide, .inr (by omega), .inl rfl⟩
        · exact ⟨3, rfl, by decide, .inr (by omega), .inr (by omega)⟩
      · exact ⟨2, rfl, by decide, .inr (by omega), .inr (by omega)⟩
    · exact ⟨1, rfl, by decide, .inr (by omega), .inr (by omega)⟩
  · exact ⟨0, rfl, by decide, .inl rfl, .inr (by omega)⟩

theorem digit_spec : ∀ d, d < 10 → (Nat.digitChar d).isDigit = true ∧ (Nat.digitChar d).toNat = 48 + d := by decide

theorem twoDigits_value (n : Nat) : value (twoDigits n) = n % 100 ∧ ∀ c ∈ twoDigits n, c.isDigit = true := by
  have h1 := digit_spec (n / 10 % 10) (Nat.mod_lt _ (by decide))
  have h2 := digit_spec (n % 10) (Nat.mod_lt _ (by decide))
  unfold twoDigits value
  constructor
  · simp only [Nat.ofDigitChars, List.foldl_cons, List.foldl_nil, h1.2, h2.2]
    have : '0'.toNat = 48 := rfl
    rw [this]
    omega
  · intro c hc
    simp only [List.mem_cons, List.not_mem_nil, or_false] at hc
    rcases hc with rfl | rfl
    · exact h1.1
    · exact h2.1

/-- C116 the text is a number with two decimals and a unit, a power of 1000 bytes.  The unit is the largest, up to terabytes, that is not larger than
the number of bytes (bytes if there is none), and the number is the multiple of a hundredth of the unit nearest to the number of bytes,
the even one if there are two. -/
theorem format_bytes_spec (n : Nat) : ∃ whole frac k, formatBytes n = whole ++ '.' :: frac ++ ' ' :: (unit k).toList ∧
    (∀ c ∈ whole, c.isDigit = true) ∧ whole ≠ [] ∧ (∀ c ∈ frac, c.isDigit = true) ∧ frac.length = 2 ∧
    k ≤ 4 ∧ (k = 0 ∨ 1000 ^ k ≤ n) ∧ (k = 4 ∨ n < 1000 ^ (k + 1)) ∧
    2 * ((100 * value whole + value frac) * 1000 ^ k) ≤ 200 * n + 1000 ^ k ∧ 200 * n ≤ 2 * ((100 * value whole + value frac) * 1000 ^ k) + 1000 ^ k ∧
    (2 * ((100 * value whole + value frac) * 1000 ^ k) = 200 * n + 1000 ^ k ∨ 200 * n = 2 * ((100 * value whole + value frac) * 1000 ^ k) + 1000 ^ k →
      value frac % 2 = 0) := by
  obtain ⟨k, h1, h2, h3, h4⟩ := scale_spec n
  have hr := round_spec (100 * n) (1000 ^ k) (Nat.pow_pos (by decide))
  unfold formatBytes bytesShown
  dsimp only
  rw [h1]
  dsimp only
  generalize roundHalfEven (100 * n) (1000 ^ k) = q at hr
  have e : 100 * (q / 100) + q % 100 = q := Nat.div_add_mod q 100
  refine ⟨natStr (q / 100), twoDigits q, k, rfl, fun c hc => Nat.isDigit_of_mem_toDigits (by decide) (by decide) hc, Nat.toDigits_ne_nil,
    (twoDigits_value q).2, rfl, h2, h3, h4, ?_⟩
  rw [value_natStr, (twoDigits_value q).1, e]
  refine ⟨by omega, by omega, fun h => ?_⟩
  have := hr.2.2 (by omega)
  omega

/-- C116 fails in one respect one might expect: just below a power of 1000 the number is rounded to 1000 of the smaller unit. -/
theorem shows_thousand : formatBytes 999999 = "1000.00 KB".toList := by decide +kernel

example : formatBytes 0 = "0.00 B".toList ∧ formatBytes 942000 = "942.00 KB".toList ∧ formatBytes 1066440 = "1.07 MB".toList ∧
    formatBytes 1005 = "1.00 KB".toList ∧ formatBytes 1015 = "1.02 KB".toList ∧ formatBytes 2500000000000000 = "2500.00 TB".toList := by decide +kernel

/-! ### Texts of arrays (C117) -/

/-- The names of the dtypes of JAX. -/
def jaxDtypes : List Str := ["bool", "int8", "int16", "int32", "int64", "uint8", "uint16", "uint32", "uint64", "float16", "bfloat16", "float32",
  "float64", "complex64", "complex128"].map String.toList

theorem dtypes_no : ∀ d ∈ jaxDtypes, '[' ∉ simpleDtype d := by decide +kernel

theorem dtypes_inj : ∀ d ∈ jaxDtypes, ∀ e ∈ jaxDtypes, simpleDtype d = simpleDtype e → d = e := by decide +kernel

theorem split_at {c : Char} : ∀ {a b x y : Str}, c ∉ a → c ∉ b → a ++ c :: x = b ++ c :: y → a = b ∧ x = y
  | [], [], x, y, _, _, h => ⟨rfl, by injection h⟩
  | [], d :: b, x, y, _, hb, h => by injection h with h1 h2; exact absurd (by rw [h1]; exact List.mem_cons_self) hb
  | d :: a, [], x, y, ha, _, h => by injection h with h1 h2; exact absurd (by rw [h1]; exact List.mem_cons_self) ha
  | d :: a, e :: b, x, y, ha, hb, h => by
    injection h with h1 h2
    obtain ⟨h3, h4⟩ := split_at (fun h => ha (List.mem_cons_of_mem _ h)) (fun h => hb (List.mem_cons_of_mem _ h)) h2
    exact ⟨by rw [h1, h3], h4⟩

theorem natStr_inj {a b : Nat} (h : natStr a = natStr b) : a = b := by rw [← value_natStr a, h, value_natStr]

theorem comma_not_join_single (n : Nat) : ',' ∉ natStr n := digits_no n ',' (by decide)

theorem join_inj : ∀ {a b : List Nat}, join [','] (a.map natStr) = join [','] (b.map natStr) → a = b
  | [], [], _ => rfl
  | [], [n], h => absurd h.symm Nat.toDigits_ne_nil
  | [], n :: m :: b, h => by simp [join] at h
  | [n], [], h => absurd h Nat.toDigits_ne_nil
  | n :: m :: a, [], h => by simp [join] at h
  | [n], [m], h => by rw [natStr_inj h]
  | [n], m :: k :: b, h => by
    have h : natStr n = natStr m ++ [','] ++ _ := h
    exact absurd (by rw [h]; simp) (comma_not_join_single n)
  | n :: k :: a, [m], h => by
    have h : natStr n ++ [','] ++ _ = natStr m := h
    exact absurd (by rw [← h]; simp) (comma_not_join_single m)
  | n :: k :: a, m :: l :: b, h => by
    have h : natStr n ++ [','] ++ join [','] ((k :: a).map natStr) = natStr m ++ [','] ++ join [','] ((l :: b).map natStr) := h
    rw [List.append_assoc, List.append_assoc] at h
    obtain ⟨h1, h2⟩ := split_at (comma_not_join_single n) (comma_not_join_single m) h
    rw [natStr_inj h1, join_inj h2]

/-- C117 the text of an array determines its shape and its dtype, among the dtypes of JAX. -/
theorem format_array_inj {x y : ArraySpec} (hx : x.dtype ∈ jaxDtypes) (hy : y.dtype ∈ jaxDtypes) (h : formatArray x = formatArray y) :
    x.shape = y.shape ∧ x.dtype = y.dtype := by
  unfold formatArray at h
  rw [List.append_assoc, List.append_assoc] at h
  obtain ⟨h1, h2⟩ := split_at (dtypes_no _ hx) (dtypes_no _ hy) h
  exact ⟨join_inj (List.append_cancel_right h2), dtypes_inj _ hx _ hy h1⟩

/-- The texts of the dtypes of JAX. -/
def dtypeTexts : List (Str × Str) := [("bool", "bool"), ("int8", "s8"), ("int16", "s16"), ("int32", "s32"), ("int64", "s64"), ("uint8", "u8"), ("uint16", "u16"), ("uint32", "u32"), ("uint64", "u64"), ("float16", "f16"),
  ("bfloat16", "bf16"), ("float32", "f32"), ("float64", "f64"), ("complex64", "c64"), ("complex128", "c128")].map fun p => (p.1.toList, p.2.toList)

theorem simple_texts : ∀ p ∈ dtypeTexts, simpleDtype p.1 = p.2 := by decide +kernel

/-- C117 the text of an array: that of the dtype, and in brackets the sizes in decimal, with commas between them. -/
theorem format_array_text {x : ArraySpec} {t : Str} (h : (x.dtype, t) ∈ dtypeTexts) : formatArray x = t ++ "[".toList ++ ",".toList.intercalate (x.shape.map (Nat.toDigits 10)) ++ "]".toList := by
  unfold formatArray
  rw [simple_texts _ h, join_eq]
  simp
  rfl

example : formatArray ⟨[784, 300], "float32".toList, 4⟩ = "f32[784,300]".toList ∧ formatArray ⟨[], "uint8".toList, 1⟩ = "u8[]".toList ∧
    formatArray ⟨[8], "bfloat16".toList, 2⟩ = "bf16[8]".toList ∧ "bfloat16".toList ∈ jaxDtypes := by decide +kernel

/-- C117 a count with commas between groups of three digits reads, without the commas, as the number. -/
theorem thousands_value (n : Nat) : value ((thousands n).filter (· ≠ ',')) = n := by rw [thousands_filter, value_natStr]

theorem commas_groups : ∀ (s : Str), s ≠ [] → ∃ (gs : List Str) (head : Str), commas s = gs.flatMap (fun g => g ++ [',']) ++ head ∧
    (∀ g ∈ gs, g.length = 3) ∧ 1 ≤ head.length ∧ head.length ≤ 3
  | a :: b :: c :: d :: rest, _ => by
    obtain ⟨gs, head, h1, h2, h3⟩ := commas_groups (d :: rest) (by simp)
    refine ⟨[a, b, c] :: gs, head, ?_, fun g hg => ?_, h3⟩
    · rw [commas, h1]; rfl
    · rcases List.mem_cons.mp hg with rfl | hg
      · rfl
      · exact h2 g hg
  | [a], _ => ⟨[], [a], rfl, by simp, by simp, by simp⟩
  | [a, b], _ => ⟨[], [a, b], rfl, by simp, by simp, by simp⟩
  | [a, b, c], _ => ⟨[], [a, b, c], rfl, by simp, by simp, by simp⟩

/-- C117 a count is shown in groups of three digits separated by commas, of which the first may be shorter. -/
theorem thousands_groups (n : Nat) : ∃ (head : Str) (gs : List Str), thousands n = head ++ gs.flatMap (fun g => ',' :: g) ∧
    (∀ g ∈ gs, g.length = 3) ∧ 1 ≤ head.length ∧ head.length ≤ 3 := by
  obtain ⟨gs, head, h1, h2, h3, h4⟩ := commas_groups (natStr n).reverse (fun e => Nat.toDigits_ne_nil (List.reverse_eq_nil_iff.mp e))
  refine ⟨head.reverse, gs.reverse.map List.reverse, ?_, fun g hg => ?_, by simpa using h3, by simpa using h4⟩
  · unfold thousands
    rw [h1, List.reverse_append]
    congr 1
    clear h1 h2
    induction gs with
    | nil => rfl
    | cons g gs ih => simp [ih]
  · obtain ⟨g', hg', rfl⟩ := List.mem_map.mp hg
    rw [List.length_reverse]
    exact h2 g' (List.mem_reverse.mp hg')

example : thousands 266610 = "266,610".toList ∧ thousands 7 = "7".toList ∧ thousands 1234567 = "1,234,567".toList := by decide +kernel

/-! ### Cases -/

/-- All texts from Python are the same. -/
def show₀ : Show Nat where
  className := fun _ => "M".toList
  repr := fun _ => "M()".toList
  input := fun _ => "in".toList
  output := fun _ => "out".toList
  isNone := fun v => v = 21

/-- A table of some columns. -/
def tableOf (columns filters : Option (List String)) (calls : List (Call Nat)) : Except Err Summary :=
  match tabulate env₃ show₀ (columns.map (List.map String.toList)) (filters.map (List.map String.toList)) with
  | .error e => .error e
  | .ok g => g (usedBy calls)

/-- The three calls of the first case, of which the second has no output: `tabulate_rows` and `tabulate_total_partial` apply, none of the calls
raises. -/
example : tableOf (some ["params_size", "module", "owned_params"]) none nested = .ok (.table (["Param count", "Module", "Module params"].map String.toList)
    (["right", "left", "left"].map String.toList)
    [["5".toList, "p (M)".toList, "w: f32[2]".toList],
     ["3".toList, "p/c/g (M)\n └ p/c (M)\n └ p (M)".toList, "w: f32[3]".toList]]) ∧
    (¬ ∃ c ∈ nested, Fails c) := by
  refine ⟨by decide +kernel, fun ⟨c, hc, h⟩ => ?_⟩
  rw [show c = _ from List.mem_singleton.mp hc] at h
  cases h with
  | inside hc h =>
    rw [List.mem_singleton] at hc
    subst hc
    cases h with
    | inside hc h =>
      rw [List.mem_singleton] at hc
      subst hc
      cases h with
      | inside hc h => cases hc

/-- No module passes, and a wrong name. -/
example : tableOf none none flatCalls.tail = .ok .noModules ∧ tableOf (some ["modules"]) none nested = .error .value ∧
    tableOf none (some ["has_state"]) nested = .error .value := by decide +kernel

/-- `tabulate_fails` on the case of a caught exception. -/
example : tableOf none none caught = .error .attribute := by decide +kernel

/-- Module 0 is "m" with a parameter named "a/w", 1 is "m/a" without parameters. -/
def envSlash : Fixed where
  name := fun k => if k = 0 then "m".toList else "m/a".toList
  params := [("m".toList, [("a/w".toList, ⟨[2], "float32".toList, 4⟩)])]

/-- "m" calls "m/a", and then a second time. -/
def slashCalls : List (Call Nat) := [.mk 0 callName 1 [.mk 1 callName 2 [] (some 3), .mk 1 callName 2 [] (some 3)] (some 4)]

/-- C115 fails for parameters with a slash in their name: "m", whose parameter is "a/w", shows no parameters, and "m/a", which has none, shows a
parameter "w". -/
theorem owned_slash : ((runCalls envSlash [] ⟨[], fun _ => []⟩ slashCalls).used.map fun r => r.map fun r =>
    (formatOwnedParams (envSlash.name r.details.module) r.details).toOption.map String.ofList) =
    [some (some ""), some (some ""), some (some "w: f32[2]")] := by decide +kernel

/-- `owned_params_partial` applies to the first case. -/
example : ((usedBy nested)[0]?.bind id).isSome = true ∧ WF2 env₃.params ∧ Submodules.PlainNames env₃.params := by
  refine ⟨by decide +kernel, ⟨by decide +kernel, ?_⟩, by unfold Submodules.PlainNames; decide +kernel⟩
  intro b i h
  have h := Dict.mem_of_get? h
  simp only [env₃, List.mem_cons, List.not_mem_nil, or_false, Prod.mk.injEq] at h
  rcases h with ⟨_, rfl⟩ | ⟨_, rfl⟩ <;> simp [Dict.keys]

end Verif.Props.Tabulate
