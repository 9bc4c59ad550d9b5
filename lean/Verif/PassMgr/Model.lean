import Std.Data.String.ToNat
/-!
# Model of the pass manager

`codon/cir/transform/manager.cpp`, `manager.h`, `pass.h`.  Passes and analyses are arbitrary functions of the module
(`σ`) and of the cached results (`ρ`).  `none` stands for a failed assertion, or for using an analysis that does not
exist.  Passes report whether they want to be repeated; the number of repetitions is bounded by `limit`
(pass.h:74 `PassGroup::shouldRepeat`, pass.h:37 for other passes).
-/
namespace Codon.PassMgr

/-- analysis.h:20-46, manager.h:59-74 `AnalysisMetadata`. -/
structure Analysis (σ ρ : Type) where
  reqs : List String
  run : σ → (String → Option ρ) → ρ

/-- pass.h:20-51, manager.h:40-56 `PassMetadata`. -/
structure Pass (σ ρ : Type) where
  reqs : List String
  invalidates : List String
  run : σ → (String → Option ρ) → σ × Bool
  limit : Nat

/-- manager.h:76-92.  `keys` is the key manager: how often a key was used.  `numAnalyses` is the size of `analyses`. -/
structure Mgr (σ ρ : Type) where
  keys : String → Nat
  passes : String → Option (Pass σ ρ)
  analyses : String → Option (Analysis σ ρ)
  deps : String → Option (List String)
  order : List String
  results : List (String × ρ)
  disabled : List String
  numAnalyses : Nat

variable {σ ρ : Type}

def set {α : Type} (m : String → α) (k : String) (v : α) : String → α := fun j => if j = k then v else m j

/-- manager.h:109-115, before the standard passes are registered. -/
def Mgr.init (disabled : List String) : Mgr σ ρ where
  keys _ := 0
  passes _ := none
  analyses _ := none
  deps _ := none
  order := []
  results := []
  disabled := disabled
  numAnalyses := 0

/-- manager.cpp:35-47 `getUniqueKey`. -/
def uniqueKey (keys : String → Nat) (key : String) : Option (String × (String → Nat)) :=
  if ':' ∈ key.toList then none
  else match keys key with
    | 0 => some (key, set keys key 1)
    | n + 1 => some (key ++ ":" ++ (n + 2).repr, set keys key (n + 2))

/-- manager.cpp:58-61, 85-88: record that `key` needs the analyses `reqs`. -/
def addDeps (key : String) : List String → (String → Option (List String)) → Option (String → Option (List String))
  | [], deps => some deps
  | q :: qs, deps =>
    match deps q with
    | none => none
    | some l => addDeps key qs (set deps q (some (l ++ [key])))

/-- `executionOrder.insert(it, key)` before the first occurrence of `b`. -/
def insertBeforeKey (b key : String) : List String → Option (List String)
  | [] => none
  | x :: xs => if x = b then some (key :: x :: xs) else (insertBeforeKey b key xs).map (x :: ·)

/-- manager.cpp:66-73. -/
def newOrder (before key : String) (order : List String) : Option (List String) :=
  if before = "" then some (order ++ [key]) else insertBeforeKey before key order

/-- manager.cpp:49-75 `registerPass`. -/
def registerPass (m : Mgr σ ρ) (raw : String) (p : Pass σ ρ) (before : String) : Option (String × Mgr σ ρ) :=
  if raw ∈ m.disabled then some ("", m)
  else do
    let (key, keys) ← uniqueKey m.keys raw
    let deps ← addDeps key p.reqs m.deps
    let order ← newOrder before key m.order
    some (key, { m with
      keys := keys
      deps := deps
      passes := set m.passes key (some p)
      order := order })

/-- manager.cpp:77-95 `registerAnalysis`. -/
def registerAnalysis (m : Mgr σ ρ) (raw : String) (a : Analysis σ ρ) : Option (String × Mgr σ ρ) :=
  if raw ∈ m.disabled then some ("", m)
  else do
    let (key, keys) ← uniqueKey m.keys raw
    let deps ← addDeps key a.reqs m.deps
    some (key, { m with
      keys := keys
      analyses := set m.analyses key (some a)
      deps := set deps key (some [])
      numAnalyses := m.numAnalyses + 1 })

/-- manager.h:169-172 `getAnalysisResult`. -/
def look (res : List (String × ρ)) (k : String) : Option ρ :=
  match res with
  | [] => none
  | (j, r) :: res => if j = k then some r else look res k

/-- What happened so far (not in the code). -/
inductive Ev where
  | computed (k : String)
  | ran (key : String) (invalidates : List String)
  deriving DecidableEq, Repr

/-- manager.cpp:125-137 `runAnalysis`.  The fuel bounds the depth of the recursion. -/
def runAnalysis (analyses : String → Option (Analysis σ ρ)) (ir : σ) :
    Nat → String → List (String × ρ) × List Ev → Option (List (String × ρ) × List Ev)
  | 0, _, _ => none
  | fuel + 1, name, st =>
    if (look st.1 name).isSome then some st
    else match analyses name with
      | none => none
      | some a =>
        match a.reqs.foldlM (fun st q => runAnalysis analyses ir fuel q st) st with
        | none => none
        | some st' => some ((name, a.run ir (look st'.1)) :: st'.1, st'.2 ++ [.computed name])

/-- manager.cpp:143-149: one round of `invalidate`. -/
def invRound (deps : String → Option (List String)) :
    List String → List (String × ρ) → List String → List (String × ρ) × List String
  | [], res, new => (res, new)
  | k :: ks, res, new =>
    if (look res k).isSome then invRound deps ks (res.filter (fun e => e.1 ≠ k)) (new ++ (deps k).getD [])
    else invRound deps ks res new

/-- manager.cpp:140-151: the loop of `invalidate`.  Every round but the last removes a result, which bounds the rounds. -/
def invLoop (deps : String → Option (List String)) : Nat → List String → List (String × ρ) → List (String × ρ)
  | 0, _, res => res
  | fuel + 1, opn, res =>
    if opn = [] then res
    else invLoop deps fuel (invRound deps opn res []).2 (invRound deps opn res []).1

/-- manager.cpp:139-152 `invalidate`. -/
def invalidate (deps : String → Option (List String)) (key : String) (res : List (String × ρ)) : List (String × ρ) :=
  invLoop deps (res.length + 1) [key] res

/-- A call of a pass: the pass, the module, the results it can look at, and what happened before (not in the code). -/
structure Call (σ ρ : Type) where
  key : String
  ir : σ
  results : List (String × ρ)
  hist : List Ev

/-- The manager, the module, and the record of what happened. -/
structure World (σ ρ : Type) where
  m : Mgr σ ρ
  ir : σ
  hist : List Ev
  calls : List (Call σ ρ)

/-- manager.cpp:110-121: one iteration of `runPass`; also tells whether the pass wants to be repeated. -/
def passOnce (key : String) (p : Pass σ ρ) (w : World σ ρ) : Option (World σ ρ × Bool) :=
  match p.reqs.foldlM (fun st q => runAnalysis w.m.analyses w.ir (w.m.numAnalyses + 1) q st) (w.m.results, w.hist) with
  | none => none
  | some st =>
    let out := p.run w.ir (look st.1)
    some ({ m := { w.m with results := p.invalidates.foldl (fun r k => invalidate w.m.deps k r) st.1 }
            ir := out.1
            hist := st.2 ++ [.ran key p.invalidates]
            calls := w.calls ++ [⟨key, w.ir, st.1, st.2⟩] }, out.2)

/-- manager.cpp:106-122: the loop of `runPass`, with the number of repetitions that are still possible. -/
def passLoop (key : String) (p : Pass σ ρ) : Nat → World σ ρ → Option (World σ ρ)
  | n, w =>
    match passOnce key p w with
    | none => none
    | some (w', again) =>
      match n with
      | 0 => some w'
      | n + 1 => if again then passLoop key p n w' else some w'

/-- manager.cpp:103-123 `runPass`. -/
def runPass (key : String) (w : World σ ρ) : Option (World σ ρ) :=
  match w.m.passes key with
  | none => none
  | some p => passLoop key p (p.limit - 1) w

/-- manager.cpp:97-101 `run`. -/
def run (w : World σ ρ) : Option (World σ ρ) := w.m.order.foldlM (fun w key => runPass key w) w

end Codon.PassMgr
