import Verif.Py.Message
import Verif.Model.Entry
/-!
# Effectful programs

A python function with effects is a `Prog`: a tree of operations. `World` holds the stored state, the clock,
the hidden state of the environment (gpg keyrings, file system, plugins) and a trace of all external
operations. The store and the environment are parameters.
-/
namespace Verif

/-- what `Popen.communicate` / `wait` give: exit status, stdout, stderr; bingpg.py:184-185 -/
structure GpgOut where
  ret : Int
  out : Bytes
  err : Bytes
deriving DecidableEq, Repr

/-- text written for the user by the command line or the bot -/
inductive Output where
  | line (s : Str)
  | mail (m : Msg)
  /-- `click.echo(bytes)` -/
  | data (b : Bytes)
  /-- `SMTP(host, port).sendmail(from, recipients, message)`, bot.py:20-24 -/
  | smtp (host : Str) (port : Int) (from_ : Option Str) (rcpts : List Str) (m : Msg)

/-- operations on the environment -/
inductive ExtOp where
  /-- `Popen(args)` with data for stdin; bingpg.py:177-185 -/
  | gpg (argv : List Str) (stdin : Option Bytes)
  /-- `find_executable(name)`; bingpg.py:391-426 -/
  | findExecutable (name : Str)
  /-- `os.path.exists` -/
  | pathExists (p : Str)
  /-- `os.makedirs` and `os.chmod`, bingpg.py:113-114 -/
  | makedirs (p : Str)
  /-- writing `gpg-agent.conf`, bingpg.py:120-121 -/
  | writeFile (p : Str) (content : Str)
  /-- `NamedTemporaryFile(delete=False)`, bingpg.py:132 -/
  | mkTemp
  /-- `f.write(data)` and the closing of the file, bingpg.py:133 -/
  | writeTemp (name : Str) (data : Bytes)
  /-- `os.remove`, bingpg.py:137 -/
  | rmTemp (name : Str)
  /-- `uuid.uuid4().hex`, account.py:246 -/
  | uuid
  /-- plugin hook `instantiate_account`, account.py:103 -/
  | hookInstantiate (basedir : Str)
  /-- plugin hook `process_incoming_gossip`, account.py:341 -/
  | hookIncomingGossip (addrs : List Str) (key : Str) (dec : Msg)
  /-- plugin hook `process_before_encryption`, account.py:511; a plugin may change the payload message -/
  | hookBeforeEnc (sender : Str) (keyhandle : Str) (recipients : List (Str × Bytes)) (payload : Msg)
  /-- `shutil.rmtree(self.dir)` for everything but the store, account.py:187 -/
  | rmtree
  /-- `Popen([sendmail] + args)` with the message for stdin, cmdline.py:428-430 -/
  | sendmail (argv : List Str) (m : Msg)
  /-- output of the command line or the bot -/
  | emit (o : Output)

/-- result types of external operations; operations which may raise give an `Except` -/
def ExtOp.Ret : ExtOp → Type
  | .gpg _ _ => Except Exc GpgOut
  | .findExecutable _ => Option Str
  | .pathExists _ => Bool
  | .makedirs _ => Except Exc Unit
  | .writeFile _ _ => Except Exc Unit
  | .mkTemp => Except Exc Str
  | .writeTemp _ _ => Except Exc Unit
  | .rmTemp _ => Except Exc Unit
  | .uuid => Str
  | .hookInstantiate _ => Except Exc Unit
  | .hookIncomingGossip _ _ _ => Except Exc Unit
  | .hookBeforeEnc _ _ _ _ => Except Exc Msg
  | .rmtree => Unit
  | .sendmail _ _ => Except Exc Int
  | .emit _ => Except Exc Unit

/-- an external operation with its result, as recorded in the trace -/
structure Event where
  op : ExtOp
  ret : op.Ret

/-- all operations of a program -/
inductive Op where
  /-- `time.time()` -/
  | now
  /-- `list(chain.iter_entries())`, newest first, for the chain with this head name -/
  | chain (head : Str)
  /-- `chain.append_entry(entry)` -/
  | append (head : Str) (e : Entry)
  /-- the keys of `_getheads()` -/
  | heads
  /-- `HeadTracker.remove_if` -/
  | removeIf (p : Str → Bool)
  /-- removal of the directory with blocks and heads and its re-creation, account.py:187-189 -/
  | wipe
  | ext (o : ExtOp)

/-- result types of operations -/
def Op.Ret : Op → Type
  | .now => Time
  | .chain _ => Except Exc (List Entry)
  | .append _ _ => Except Exc Unit
  | .heads => Except Exc (List Str)
  | .removeIf _ => Except Exc Unit
  | .wipe => Unit
  | .ext o => o.Ret

/-- programs with result `α` -/
inductive Prog (α : Type) where
  | pure (a : α)
  | raise (e : Exc)
  | op (o : Op) (k : o.Ret → Prog α)

namespace Prog

/-- sequencing -/
def bind {α β : Type} : Prog α → (α → Prog β) → Prog β
  | .pure a, f => f a
  | .raise e, _ => .raise e
  | .op o k, f => .op o (fun r => bind (k r) f)

instance : Monad Prog where
  pure := .pure
  bind := bind

/-- `try: p  except Exception as e: h(e)`; effects of `p` before the exception remain -/
def tryCatch {α : Type} : Prog α → (Exc → Prog α) → Prog α
  | .pure a, _ => .pure a
  | .raise e, h => h e
  | .op o k, h => .op o (fun r => tryCatch (k r) h)

/-- run `p` and return its result or the exception it raised -/
def attempt {α : Type} (p : Prog α) : Prog (Except Exc α) :=
  tryCatch (p.bind fun a => .pure (Except.ok a)) (fun e => .pure (Except.error e))

/-- `try: p  finally: f` -/
def finally_ {α : Type} (p : Prog α) (f : Prog Unit) : Prog α :=
  (attempt p).bind fun r =>
    f.bind fun _ => match r with
      | .ok a => .pure a
      | .error e => .raise e

/-- lift a pure computation which may raise -/
def ofExcept {α : Type} : Except Exc α → Prog α
  | .ok a => .pure a
  | .error e => .raise e

/-- `assert b` -/
def assert (b : Bool) : Prog Unit := if b then .pure () else .raise .assertionError

/-- perform an operation which cannot raise -/
def perform (o : Op) : Prog o.Ret := .op o .pure

/-- `time.time()` -/
def now : Prog Time := .op .now .pure
/-- read all entries of a chain -/
def chain (h : Str) : Prog (List Entry) := .op (.chain h) (fun r => ofExcept r)
/-- append an entry -/
def append (h : Str) (e : Entry) : Prog Unit := .op (.append h e) (fun r => ofExcept r)
/-- list the head names -/
def heads : Prog (List Str) := .op .heads (fun r => ofExcept r)
/-- remove heads -/
def removeIf (p : Str → Bool) : Prog Unit := .op (.removeIf p) (fun r => ofExcept r)
/-- run gpg -/
def gpg (argv : List Str) (stdin : Option Bytes) : Prog GpgOut :=
  .op (.ext (.gpg argv stdin)) (fun r => ofExcept r)
def findExecutable (n : Str) : Prog (Option Str) := .op (.ext (.findExecutable n)) (fun r => .pure r)
def pathExists (n : Str) : Prog Bool := .op (.ext (.pathExists n)) (fun r => .pure r)
def makedirs (n : Str) : Prog Unit := .op (.ext (.makedirs n)) (fun r => ofExcept r)
def writeFile (n c : Str) : Prog Unit := .op (.ext (.writeFile n c)) (fun r => ofExcept r)
def mkTemp : Prog Str := .op (.ext .mkTemp) (fun r => ofExcept r)
def writeTemp (n : Str) (d : Bytes) : Prog Unit := .op (.ext (.writeTemp n d)) (fun r => ofExcept r)
def rmTemp (n : Str) : Prog Unit := .op (.ext (.rmTemp n)) (fun r => ofExcept r)
def uuid : Prog Str := .op (.ext .uuid) (fun r => .pure r)
def hookInstantiate (b : Str) : Prog Unit := .op (.ext (.hookInstantiate b)) (fun r => ofExcept r)
def hookIncomingGossip (a : List Str) (k : Str) (m : Msg) : Prog Unit :=
  .op (.ext (.hookIncomingGossip a k m)) (fun r => ofExcept r)
def hookBeforeEnc (s k : Str) (r : List (Str × Bytes)) (m : Msg) : Prog Msg :=
  .op (.ext (.hookBeforeEnc s k r m)) (fun r => ofExcept r)
def rmtree : Prog Unit := .op (.ext .rmtree) (fun _ => .op .wipe (fun _ => .pure ()))
def sendmail (argv : List Str) (m : Msg) : Prog Int := .op (.ext (.sendmail argv m)) (fun r => ofExcept r)
def emit (o : Output) : Prog Unit := .op (.ext (.emit o)) (fun r => ofExcept r)

end Prog

/-- the behaviour of the environment: an arbitrary function of its hidden state -/
structure Oracle (K : Type) where
  step : (o : ExtOp) → K → o.Ret × K

/-- a store implementation; `append` gets the time for the block's timestamp -/
structure StoreImpl (σ : Type) where
  chain : σ → Str → Except Exc (List Entry)
  append : σ → Str → Entry → Time → Except Exc Unit × σ
  heads : σ → Except Exc (List Str)
  removeIf : σ → (Str → Bool) → Except Exc Unit × σ
  wipe : σ → σ

/-- the state of a run -/
structure World (σ K : Type) where
  store : σ
  /-- the values which successive clock reads give -/
  clock : Nat → Time
  /-- number of clock reads so far -/
  tick : Nat
  env : K
  /-- external operations so far, newest first -/
  trace : List Event

variable {σ K : Type}

/-- one operation -/
def step (S : StoreImpl σ) (O : Oracle K) : (o : Op) → World σ K → o.Ret × World σ K
  | .now, w => (w.clock w.tick, { w with tick := w.tick + 1 })
  | .chain h, w => (S.chain w.store h, w)
  | .append h e, w =>
    let r := S.append w.store h e (w.clock w.tick)
    (r.1, { w with store := r.2, tick := w.tick + 1 })
  | .heads, w => (S.heads w.store, w)
  | .removeIf p, w =>
    let r := S.removeIf w.store p
    (r.1, { w with store := r.2 })
  | .wipe, w => ((), { w with store := S.wipe w.store })
  | .ext o, w =>
    let r := O.step o w.env
    (r.1, { w with env := r.2, trace := ⟨o, r.1⟩ :: w.trace })

/-- run a program -/
def run (S : StoreImpl σ) (O : Oracle K) {α : Type} : Prog α → World σ K → Except Exc α × World σ K
  | .pure a, w => (.ok a, w)
  | .raise e, w => (.error e, w)
  | .op o k, w => run S O (k (step S O o w).1) (step S O o w).2

end Verif
