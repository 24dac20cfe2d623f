/-!
Model of the memoised readouts of the machine and their users: `kerncraft/machinemodel.py:679-680, 709-712, 790` (both functions have `lru_cache(1)`),
`188-197` (`update` without benchmarks and machine state) and `545-565` (`current_system`). Dictionaries are objects in a heap, because `current_system` changes
the memoised dictionary. Their values are not changed and of any type; what is read from the machine is a parameter and does not change while the program
runs.
-/

namespace Verif.Readout

/-- A dictionary. -/
abbrev Dict (α : Type) := String → Option α

/-- `d.update(e)` -/
def upd {α : Type} (d e : Dict α) : Dict α := fun k => match e k with
  | some v => some v
  | none => d k

/-- The machine: what lines 683-704 read for a path of cpuinfo, and what lines 714-788 make of `placeholders` and the readouts. Both may raise exceptions. -/
structure Machine (α : Type) where
  readouts : String → Except String (Dict α)
  hierarchy : Bool → Dict α → Except String α

/-- The heap and the two memoised calls: arguments (`none` for those not given) and the object returned. -/
structure State (α : Type) where
  heap : List (Dict α) := []
  r : Option (Option String × Nat) := none
  m : Option ((Option Bool × Option String) × Nat) := none

/-- Default of `cpuinfo_path`. -/
def cpuinfo : String := "/proc/cpuinfo"

/-- `get_machine_readouts` with or without its argument (lines 679-706). Positional, named and missing arguments are different keys. -/
def readR {α : Type} (env : Machine α) (key : Option String) (s : State α) : Except String Nat × State α :=
  match s.r with
  | some (k, a) => if k = key then (.ok a, s) else miss
  | none => miss
where
  /-- The function is executed. -/
  miss : Except String Nat × State α :=
    match env.readouts (key.getD cpuinfo) with
    | .error e => (.error e, s)
    | .ok d => (.ok s.heap.length, { s with heap := s.heap ++ [d], r := some (key, s.heap.length) })

/-- `get_memory_hierarchy` (lines 709-790); it calls `get_machine_readouts` with the named argument. -/
def readM {α : Type} (env : Machine α) (key : Option Bool × Option String) (s : State α) : Except String Nat × State α :=
  match s.m with
  | some (k, a) => if k = key then (.ok a, s) else miss
  | none => miss
where
  /-- The function is executed. -/
  miss : Except String Nat × State α :=
    match readR env (some (key.2.getD cpuinfo)) s with
    | (.error e, s) => (.error e, s)
    | (.ok a, s) =>
      match s.heap[a]? with
      | none => (.error "dangling reference", s)
      | some d =>
        match env.hierarchy (key.1.getD true) d with
        | .error e => (.error e, s)
        | .ok h => (.ok s.heap.length, { s with
            heap := s.heap ++ [fun k => if k = "memory hierarchy" then some h else none], m := some (key, s.heap.length) })

/-- The keys compared (lines 558-559). -/
def keys : List String := ["model type", "model name", "sockets", "cores per socket", "threads per core", "NUMA domains per socket", "cores per NUMA domain",
  "transparent hugepage"]

/-- Lines 558-564: the keys that differ; `current_topology[k]` and `self[k]` raise KeyErrors. -/
def differing {α : Type} [DecidableEq α] (current machine : Dict α) : List String → Except String (List String)
  | [] => .ok []
  | k :: ks =>
    match current k, machine k with
    | some a, some b =>
      match differing current machine ks with
      | .error e => .error e
      | .ok l => .ok (if a = b then l else k :: l)
    | _, _ => .error "KeyError"

/-- Lines 555-565: the result and the printed keys. -/
def currentSystem {α : Type} [DecidableEq α] (env : Machine α) (machine : Dict α) (s : State α) : Except String (Bool × List String) × State α :=
  match readR env none s with
  | (.error e, s) => (.error e, s)
  | (.ok a, s) =>
    match readM env (none, none) s with
    | (.error e, s) => (.error e, s)
    | (.ok b, s) =>
      match s.heap[a]?, s.heap[b]? with
      | some d, some h =>
        let s := { s with heap := s.heap.set a (upd d h) }
        match differing (upd d h) machine keys with
        | .error e => (.error e, s)
        | .ok l => (.ok (l.isEmpty, l), s)
      | _, _ => (.error "dangling reference", s)

/-- Lines 191-195: the exception, if there is one, and the data. -/
def update {α : Type} (env : Machine α) (readouts hierarchy overwrite : Bool) (path : String) (data : Dict α) (s : State α) :
    (Option String × Dict α) × State α :=
  let first : (Option String × Dict α) × State α :=
    if readouts then
      match readR env (some path) s with
      | (.error e, s) => ((some e, data), s)
      | (.ok a, s) =>
        match s.heap[a]? with
        | none => ((some "dangling reference", data), s)
        | some d => ((none, upd data d), s)
    else ((none, data), s)
  match first with
  | ((some e, data), s) => ((some e, data), s)
  | ((none, data), s) =>
    if hierarchy then
      match readM env (some overwrite, some path) s with
      | (.error e, s) => ((some e, data), s)
      | (.ok a, s) =>
        match s.heap[a]? with
        | none => ((some "dangling reference", data), s)
        | some d => ((none, upd data d), s)
    else ((none, data), s)

/-- Calls from anywhere in a program. -/
inductive Call (α : Type) where
  | current (machine : Dict α)
  | update (readouts hierarchy overwrite : Bool) (path : String) (data : Dict α)

/-- What a caller gets. -/
inductive Answer (α : Type) where
  | current (result : Except String (Bool × List String))
  | update (error : Option String) (data : Dict α)

def step {α : Type} [DecidableEq α] (env : Machine α) (s : State α) : Call α → Answer α × State α
  | .current machine => (.current (currentSystem env machine s).1, (currentSystem env machine s).2)
  | .update r h o path data =>
    (.update (update env r h o path data s).1.1 (update env r h o path data s).1.2, (update env r h o path data s).2)

/-- The state after some calls. -/
def after {α : Type} [DecidableEq α] (env : Machine α) (s : State α) : List (Call α) → State α
  | [] => s
  | c :: cs => after env (step env s c).2 cs

end Verif.Readout
