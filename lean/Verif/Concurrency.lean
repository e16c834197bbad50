import Verif.BackendQueries
import Verif.Suggester

/-!
# Handlers that run at the same time

The handlers of `src/backend/mod.rs` are futures that share one state behind a `tokio::sync::Mutex`; `references` and `rename`
also spawn tasks that collect their results in a second mutex (lines 221–285).  Here a handler is a `Prog`: what it does
between two points at which another one may run.  A configuration is the shared data, the owners of the mutexes, and the
programs that are left of the running handlers and tasks; a scheduler may choose any of them at each step.

Simplifications: reading a file from the disk and sending diagnostics to the client always end (`Prog.run` without an
effect); the order in which waiting handlers get the mutex is arbitrary (tokio: in the order of asking); spawning and
joining all tasks is one `fork` and one `wait`, since the handler does nothing in between.
-/

namespace PhpLs.Concurrency

open PhpLs

/-- The mutexes: that of the state (`src/backend/mod.rs` 101), and for each `references` or `rename` request that of its
results (line 230). -/
inductive Lk where
  | state
  | results (request : Nat)
deriving DecidableEq, Repr

/-- What is left of a handler or task.  `σ` is the shared data, `α` the answers. -/
inductive Prog (σ α : Type) where
  /-- It has answered. -/
  | done (a : α)
  /-- `lock().await`. -/
  | lock (l : Lk) (k : Prog σ α)
  /-- A guard is dropped. -/
  | unlock (l : Lk) (k : Prog σ α)
  /-- Code up to the next point at which it may be interrupted; how it goes on may depend on what it has seen. -/
  | run (f : σ → σ) (k : σ → Prog σ α)
  /-- `n` tasks are spawned. -/
  | fork (n : Nat) (ts : Nat → Prog σ α) (k : Prog σ α)
  /-- It waits for the end of all its tasks. -/
  | wait (k : Prog σ α)

/-- A running handler, or a task of a handler. -/
structure Thread (σ α : Type) where
  id : Nat
  parent : Option Nat
  prog : Prog σ α

/-- All that runs. -/
structure Cfg (σ α : Type) where
  data : σ
  owner : Lk → Option Nat
  threads : List (Thread σ α)
  next : Nat

variable {σ α : Type}

/-- It has come to its end. -/
def Prog.isDone : Prog σ α → Bool
  | .done _ => true
  | _ => false

/-- A mutex changes its owner. -/
def setOwner (o : Lk → Option Nat) (l : Lk) (i : Option Nat) : Lk → Option Nat := fun l' => if l' = l then i else o l'

/-- The tasks of thread `i`, the first of which gets the number `next`. -/
def tasks (i next n : Nat) (ts : Nat → Prog σ α) : List (Thread σ α) :=
  (List.range n).map fun j => ⟨next + j, some i, ts j⟩

/-- Thread `t`, one of the threads `l1 ++ t :: l2`, goes on. -/
inductive Step : Cfg σ α → Cfg σ α → Prop where
  | lock {d : σ} {o : Lk → Option Nat} {l1 l2 : List (Thread σ α)} {n i : Nat} {p : Option Nat} {l : Lk} {k : Prog σ α} :
      o l = none → Step ⟨d, o, l1 ++ ⟨i, p, .lock l k⟩ :: l2, n⟩ ⟨d, setOwner o l (some i), l1 ++ ⟨i, p, k⟩ :: l2, n⟩
  | unlock {d : σ} {o : Lk → Option Nat} {l1 l2 : List (Thread σ α)} {n i : Nat} {p : Option Nat} {l : Lk} {k : Prog σ α} :
      o l = some i → Step ⟨d, o, l1 ++ ⟨i, p, .unlock l k⟩ :: l2, n⟩ ⟨d, setOwner o l none, l1 ++ ⟨i, p, k⟩ :: l2, n⟩
  | run {d : σ} {o : Lk → Option Nat} {l1 l2 : List (Thread σ α)} {n i : Nat} {p : Option Nat} {f : σ → σ}
      {k : σ → Prog σ α} : Step ⟨d, o, l1 ++ ⟨i, p, .run f k⟩ :: l2, n⟩ ⟨f d, o, l1 ++ ⟨i, p, k d⟩ :: l2, n⟩
  | fork {d : σ} {o : Lk → Option Nat} {l1 l2 : List (Thread σ α)} {n i m : Nat} {p : Option Nat} {ts : Nat → Prog σ α}
      {k : Prog σ α} : Step ⟨d, o, l1 ++ ⟨i, p, .fork m ts k⟩ :: l2, n⟩
        ⟨d, o, (l1 ++ ⟨i, p, .wait k⟩ :: l2) ++ tasks i n m ts, n + m⟩
  | wait {d : σ} {o : Lk → Option Nat} {l1 l2 : List (Thread σ α)} {n i : Nat} {p : Option Nat} {k : Prog σ α} :
      (∀ t ∈ l1 ++ l2, t.parent = some i → t.prog.isDone = true) →
      Step ⟨d, o, l1 ++ ⟨i, p, .wait k⟩ :: l2, n⟩ ⟨d, o, l1 ++ ⟨i, p, k⟩ :: l2, n⟩

/-- The client sends a request or notification: a new handler starts.  It knows its number, the name of its results. -/
def arrive (p : Nat → Prog σ α) (c : Cfg σ α) : Cfg σ α :=
  ⟨c.data, c.owner, c.threads ++ [⟨c.next, none, p c.next⟩], c.next + 1⟩

/-- Before the first request. -/
def start (d : σ) : Cfg σ α := ⟨d, fun _ => none, [], 0⟩

/-- What happens while the handlers of `H` arrive at any time and run in any order. -/
inductive Reach (H : (Nat → Prog σ α) → Prop) (c : Cfg σ α) : Cfg σ α → Prop where
  | refl : Reach H c c
  | step {c1 c2 : Cfg σ α} : Reach H c c1 → Step c1 c2 → Reach H c c2
  | arrive {c1 : Cfg σ α} {p : Nat → Prog σ α} : Reach H c c1 → H p → Reach H c (arrive p c1)

/-! ## The handlers -/

/-- The shared data: the state and the results of the running `references` and `rename` requests. -/
structure Shared where
  st : Backend
  results : Nat → Dict Text FileRefs

/-- What a handler answers.  `crash` is a panic. -/
inductive Reply where
  | none
  | locations (l : Option (List Backend.Location))
  | edits (l : Option (List (Text × List LspRange)))
  | definition (l : Option Backend.Location)
  | hover (l : Option (NodeId × LspRange))
  | highlight (l : Option (List LspRange))
  | symbols (l : Option (List SymbolInfo))
  | outline (l : Option (List DocSym))
  | completion (l : Option (List CompletionItem))
  | crash

/-- Code that runs with the state locked and does not wait for another mutex: some parts, then the guard is dropped. -/
inductive Body (σ α : Type) where
  | ret (a : α)
  | run (f : σ → σ) (k : σ → Body σ α)

/-- What it does if it is not interrupted. -/
def Body.eval : Body σ α → σ → σ × α
  | .ret a, s => (s, a)
  | .run f k, s => (k s).eval (f s)

/-- What is left of it. -/
def Body.prog : Body σ α → Prog σ α
  | .ret a => .unlock .state (.done a)
  | .run f k => .run f fun s => (k s).prog

/-- A handler that locks the state once. -/
def single (b : Body σ α) : Nat → Prog σ α := fun _ => .lock .state b.prog

/-- The handler waits `n` times for the client and holds the lock. -/
def pauses (b : Body σ α) : Nat → Body σ α
  | 0 => b
  | n + 1 => .run id fun _ => pauses b n

/-- The state after a part of a handler, which may panic.  What a panic leaves behind is given by `broken`. -/
def applied (f : Backend → Out (Backend × Reply)) (broken : Backend → Backend) (s : Shared) : Shared :=
  match f s.st with
  | .ok (st, _) => ⟨st, s.results⟩
  | _ => ⟨broken s.st, s.results⟩

/-- A part of a handler that changes the state, and may panic; then it waits `n` times for the client. -/
def section' (f : Backend → Out (Backend × Reply)) (broken : Backend → Backend) (n : Nat) : Body Shared Reply :=
  .run (applied f broken) fun s =>
  match f s.st with
  | .ok (_, r) => pauses (.ret r) n
  | _ => .ret .crash

/-- The handlers that lock the state once. -/
inductive Request where
  | symbol (query : Text)
  | documentSymbol (path : Text)
  | documentHighlight (p : Pos) (path : Text)
  | gotoImplementation (p : Pos) (path : Text)
  | gotoDefinition (p : Pos) (path : Text)
  | hover (p : Pos) (path : Text)
  | completion (trigger : Option Char) (p : Pos) (path : Text)
  | didChangeWatchedFiles (changes : List (Text × Option Text))
  | didChange (path : Text) (changes : List Text)
  | didClose (path : Text)
  | didOpen (path : Text) (disk : Option Text)
  | initialized

/-- What they do with the state. -/
def Request.effect (h : Host) : Request → Backend → Out (Backend × Reply)
  | .symbol q, st => do let l ← Backend.workspaceSymbols h st q; pure (st, .symbols l)
  | .documentSymbol f, st => do let l ← Backend.documentSymbols st f; pure (st, .outline l)
  | .documentHighlight p f, st => .ok (st, .highlight (Backend.documentHighlight h.H st p f))
  | .gotoImplementation p f, st => do let l ← Backend.gotoImplementation h st p f; pure (st, .locations l)
  | .gotoDefinition p f, st => do let l ← Backend.gotoDefinition h.H st p f; pure (st, .definition l)
  | .hover p f, st => do let l ← Backend.hover h.H st p f; pure (st, .hover l)
  | .completion t p f, st => do let l ← Backend.completion h st t p f; pure (st, .completion l)
  | .didChangeWatchedFiles l, st => do let st ← Backend.didChangeWatched h l st; pure (st, .none)
  | .didChange f l, st => do let st ← Backend.didChange h f l st; pure (st, .none)
  | .didClose f, st => .ok (Backend.didClose f st, .none)
  | .didOpen f d, st => do let st ← Backend.didOpen h f d st; pure (st, .none)
  | .initialized, st => .ok (Backend.initialized st, .none)

/-- The handlers of `src/backend/mod.rs` 642–700, 823–895 (without `formatting`, which also locks the state once and only
reads it).  `did_open` (lines 863–881), `did_change` (lines 844–856) and `initialized` (lines 642–664) wait for the client while
they hold the lock: the first two after their work, at most once, the last one before it empties the diagnostics, once for
each file that has some. -/
def Request.body (h : Host) (broken : Backend → Backend) (r : Request) : Body Shared Reply :=
  match r with
  | .initialized => .run id fun s => pauses (section' (r.effect h) broken 0)
      (s.st.diagnostics.filter fun e => !e.2.isEmpty).length
  | .didOpen .. | .didChange .. => section' (r.effect h) broken 1
  | _ => section' (r.effect h) broken 0

/-- The end of a handler: it drops the guard and answers. -/
def leave (a : α) : Prog σ α := .unlock .state (.done a)

/-- A task has looked through the file `path` with the tree `ast` for the request `r` (`src/backend/mod.rs` 253–268). -/
def searched (h : Host) (broken : Backend → Backend) (r : Nat) (path : Text) (ast : List Node) (s : Shared) : Shared :=
  match Backend.resolveFile h path ast s.st with
  | .ok (some refs, st) => ⟨st, fun r' => if r' = r then Dict.insert (s.results r) path refs else s.results r'⟩
  | .ok (none, st) => ⟨st, s.results⟩
  | _ => ⟨broken s.st, s.results⟩

/-- There are no results yet (`src/backend/mod.rs` 230). -/
def emptied (r : Nat) (s : Shared) : Shared := ⟨s.st, fun r' => if r' = r then [] else s.results r'⟩

/-- One task of `references_of_symbol_under_cursor` (`src/backend/mod.rs` 238–272) for the request `r`. -/
def searchTask (h : Host) (disk : Text → Option Text) (broken : Backend → Backend) (name : Text) (r : Nat) (f : Text × NodeId) :
    Prog Shared Reply :=
  match disk f.1 with
  | none => .done .none
  | some content =>
    if Backend.contains name content then
      .lock .state (match Backend.sourceToAst h content with
        | .ok (some (ast, _, _)) =>
          .lock (.results r) (.run (searched h broken r f.1 ast)
            fun _ => .unlock (.results r) (.unlock .state (.done .none)))
        | _ => .unlock .state (.done .none))
    else .done .none

/-- `references_of_symbol_under_cursor` (`src/backend/mod.rs` 221–285), then `k`. -/
def searchAll (h : Host) (disk : Text → Option Text) (broken : Backend → Backend) (name : Text) (r : Nat)
    (k : Prog Shared Reply) : Prog Shared Reply :=
  .lock .state <| .run id fun s => .unlock .state <|
    .run (emptied r) fun _ =>
    .fork s.st.files.length (fun j => match s.st.files[j]? with
      | some f => searchTask h disk broken name r f
      | none => .done .none) k

/-- `references` (`src/backend/mod.rs` 702–754). -/
def references (h : Host) (disk : Text → Option Text) (broken : Backend → Backend) (p : Pos) (path : Text) (r : Nat) :
    Prog Shared Reply :=
  .lock .state <| .run id fun s => match Backend.symbolUnderCursor s.st p path with
    | .ok none => leave (.locations none)
    | .ok (some (n, name)) => .unlock .state <| searchAll h disk broken name r <|
        .lock (.results r) <| .run id fun s => .unlock (.results r) <|
          .done (.locations (some (Backend.locationsOf h.H n (s.results r))))
    | _ => leave .crash

/-- `rename` (`src/backend/mod.rs` 756–821). -/
def rename (h : Host) (disk : Text → Option Text) (broken : Backend → Backend) (p : Pos) (path : Text) (r : Nat) :
    Prog Shared Reply :=
  .lock .state <| .run id fun s => match (Dict.get? s.st.references path).bind (Backend.referencedSymbol h.H p) with
    | none => leave (.edits none)
    | some n => .unlock .state <| .lock .state <| .run id fun s => match s.st.arena.get? n with
      | none => leave .crash
      | some sym => .unlock .state <| searchAll h disk broken sym.name r <|
          .lock (.results r) <| .run id fun s => .unlock (.results r) <|
            .done (.edits (some ((h.H.order (s.results r)).map fun e =>
              (e.1, (h.H.order e.2).flatMap fun x => if x.1 = n then x.2.map getRange else []))))

/-- All handlers, for requests with the property `R`. -/
inductive Handler (h : Host) (disk : Text → Option Text) (broken : Backend → Backend) (R : Request → Prop) :
    (Nat → Prog Shared Reply) → Prop where
  | single (r : Request) : R r → Handler h disk broken R (single (r.body h broken))
  | references (p : Pos) (path : Text) : Handler h disk broken R (references h disk broken p path)
  | rename (p : Pos) (path : Text) : Handler h disk broken R (rename h disk broken p path)

/-! ## init_workspace -/

/-- `init_workspace` (`src/backend/mod.rs` 287–382): the threads of the walker have parsed files and send them, the task at the
other end of the channel indexes them. -/
structure Indexing where
  /-- What each thread of the walker will still send. -/
  toSend : List (List (Text × Text))
  /-- The files in the channel. -/
  queue : List (Text × Text)
  /-- The files that have been indexed. -/
  indexed : List (Text × Text)

/-- A thread sends if there is room in the channel (`cap` = 1000, line 289); the task takes the next file. -/
inductive Indexing.Step (cap : Nat) : Indexing → Indexing → Prop where
  | send {l1 l2 : List (List (Text × Text))} {f : Text × Text} {r q d : List (Text × Text)} : q.length < cap →
      Step cap ⟨l1 ++ (f :: r) :: l2, q, d⟩ ⟨l1 ++ r :: l2, q ++ [f], d⟩
  | recv {w : List (List (Text × Text))} {f : Text × Text} {q d : List (Text × Text)} :
      Step cap ⟨w, f :: q, d⟩ ⟨w, q, d ++ [f]⟩

/-- The threads have ended, so that the channel is closed, and the task has seen all files: `mt.join().unwrap().await`. -/
def Indexing.Finished (s : Indexing) : Prop := (∀ l ∈ s.toSend, l = []) ∧ s.queue = []

end PhpLs.Concurrency
