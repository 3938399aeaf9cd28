import Verif.Model.Commands
import Verif.Model.Store
import Mathlib.Data.Set.Defs
/-!
# Histories of API calls and commands

The public API as a data type, so that "every history" is "every list of calls". Calls on an `Account`
object start with the check of its constructor (account.py:200), whether or not the account exists.
Histories also have commands in them, of the command line and of the bot.
-/
namespace Verif

/-- calls of the public API with their arguments -/
inductive ApiCall where
  | init
  | getAccount (name : Str) (check : Bool)
  | addAccount (name : Str) (emailRegex keyhandle : Option Str) (gpgbin gpgmode : Str)
  | modAccount (name : Str) (emailRegex keyhandle gpgbin pe : Option Str)
  | delAccount (name : Str)
  | listAccountNames
  | accountFromEmailadr (addr : Str) (raising : Bool)
  | matchingAccount (m : Msg)
  | removeAll
  | peernames (name : Str)
  | recommendation (name : Str) (addrs : List Str) (replyToEnc : Bool) (from_ : Option Str)
  | makeAcHeader (name addr : Str)
  | exportPublicKey (name : Str) (keyhandle : Option Str)
  | exportSecretKey (name : Str)
  | processIncoming (name : Str) (m : Msg) (ignoreExisting noDecrypt : Bool)
  | processOutgoing (name : Str) (m : Msg)
  | encryptMime (name : Str) (m : Msg) (toaddrs : List Str)
  | decryptMime (name : Str) (m : Msg)
  | importKey (name : Str) (addr : Option Str) (keydata : Bytes) (pe : Str)
  /-- `account.get_peerstate(addr).update_from_msg(..)` -/
  | peerMsg (name addr : Str) (u : Peer.MsgUpdate)
  /-- `account.get_peerstate(addr).update_from_msg_gossip(..)` -/
  | peerGossip (name addr : Str) (u : Peer.GossipUpdate)
  | verifySelf (name addr : Str) (keydata : Bytes)
  | verifyPeer (name addr : Str) (keydata : Bytes)
  | getVerification (name addr : Str)

/-- forget a result -/
def Prog.void {α : Type} (p : Prog α) : Prog Unit := p.bind fun _ => .pure ()

/-- a call on the account object of that name -/
def onAccount {α : Type} (env : Env) (name : Str) (p : Prog α) : Prog Unit :=
  (Manager.account env name).bind fun _ => p.void

/-- the program of a call -/
def ApiCall.prog (env : Env) : ApiCall → Prog Unit
  | .init => Manager.init
  | .getAccount n c => (Manager.getAccount env n c).void
  | .addAccount n r k b m => (Manager.addAccount env n r k b m).void
  | .modAccount n r k b p => (Manager.modAccount env n r k b p).void
  | .delAccount n => Manager.delAccount env n
  | .listAccountNames => getAccountNames.void
  | .accountFromEmailadr a r => (Manager.getAccountFromEmailadr env a r).void
  | .matchingAccount m => (Manager.getMatchingAccount env m).void
  | .removeAll => Manager.remove
  | .peernames n => onAccount env n (getPeernameList n)
  | .recommendation n as r f => onAccount env n (Account.recommendation env n as r f)
  | .makeAcHeader n a => onAccount env n (Account.makeAcHeader env n a)
  | .exportPublicKey n k => onAccount env n (Account.exportPublicKey env n k)
  | .exportSecretKey n => onAccount env n (Account.exportSecretKey env n)
  | .processIncoming n m i d => onAccount env n (Account.processIncoming env n m i d)
  | .processOutgoing n m => onAccount env n (Account.processOutgoing env n m)
  | .encryptMime n m as => onAccount env n (Account.encryptMime env n m as)
  | .decryptMime n m => onAccount env n (Account.decryptMime env n m)
  | .importKey n a k p => onAccount env n (Account.importKeydataAsAutocrypt env n a k p)
  | .peerMsg n a u => onAccount env n (Peer.updateFromMsg (Account.peerHeadOf env n a) u)
  | .peerGossip n a u => onAccount env n (Peer.updateFromGossip (Account.peerHeadOf env n a) u)
  | .verifySelf n a k => onAccount env n (OOB.appendSelf n a k)
  | .verifyPeer n a k => onAccount env n (OOB.appendPeer n a k)
  | .getVerification n a => onAccount env n (OOB.getVerification n a)

/-- the state after a list of calls, each of which may end with an exception that the caller handles -/
def runCalls {σ K : Type} (S : StoreImpl σ) (O : Oracle K) (env : Env) : List ApiCall → World σ K → World σ K
  | [], w => w
  | c :: cs, w => runCalls S O env cs (run S O (c.prog env) w).2

/-- the state in which the process dies after `n` operations of a program, if it doesn't end before -/
def runFor {σ K : Type} (S : StoreImpl σ) (O : Oracle K) {α : Type} : Nat → Prog α → World σ K → World σ K
  | n + 1, .op o k, w => runFor S O n (k (step S O o w).1) (step S O o w).2
  | _, _, w => w

/-- lookups of accounts, which commands make to find out on which account to work -/
def ApiCall.isLookup : ApiCall → Prop
  | .getAccount _ true | .accountFromEmailadr .. | .matchingAccount _ => True
  | _ => False

/-- the API calls which commands make in order to change what is stored, cmdline.py:41-64, 107-170, 252-367 and bot.py:29-128. Messages go
to the account which is found for them, which may be any. -/
def Cmd.Command.changes (c : ApiCall) : Cmd.Command → Prop
  | .addAccount n sys key bin regex => c = .addAccount n regex key bin (if sys then str!"system" else str!"own")
  | .modAccount n key bin regex pe => c = .modAccount n regex key (some (bin.getD (str!"gpg"))) pe
  | .delAccount n => c = .delAccount n
  | .processIncoming (some n) reparse nd m => c = .processIncoming n m (!reparse) nd
  | .processIncoming none reparse nd m => ∃ n, c = .processIncoming n m (!reparse) nd
  | .scandir reparse files => ∃ n, ∃ f ∈ files, c = .processIncoming n f.msg (!reparse) false
  | .importPublicKey n kd pe email => c = .importKey n email kd pe.toStr
  | .botReply _ _ _ m => ∃ n, c = .processIncoming n m false false
  | .destroyAll true => c = .removeAll
  | _ => False

/-- the API calls which a command may make, except calls which only read from a given account -/
def Cmd.Command.makes (cmd : Cmd.Command) (c : ApiCall) : Prop := c.isLookup ∨ cmd.changes c

/-- what happens to an installation -/
inductive Happening (K : Type) where
  /-- a call, which may end with an exception that the caller handles -/
  | call (c : ApiCall)
  /-- a call in which the process dies -/
  | killed (c : ApiCall) (n : Nat)
  /-- a command -/
  | command (ce : CmdEnv) (be : BotEnv) (cmd : Cmd.Command)
  /-- a command in which the process dies -/
  | commandKilled (ce : CmdEnv) (be : BotEnv) (cmd : Cmd.Command) (n : Nat)
  /-- the environment changes otherwise: gpg is used by other programs, plugins or files are changed -/
  | outside (k : K)

/-- the calls which were made or may have been made by a command -/
def Happening.makes {K : Type} (c : ApiCall) : Happening K → Prop
  | .call c' | .killed c' _ => c = c'
  | .command _ _ cmd | .commandKilled _ _ cmd _ => cmd.makes c
  | .outside _ => False

/-- the calls made, interrupted or not -/
def callsMade {K : Type} (hist : List (Happening K)) : Set ApiCall := { c | ∃ h ∈ hist, h.makes c }

/-- the state after something happened -/
def Happening.after {σ K : Type} (S : StoreImpl σ) (O : Oracle K) (env : Env) (w : World σ K) : Happening K → World σ K
  | .call c => (run S O (c.prog env) w).2
  | .killed c n => runFor S O n (c.prog env) w
  | .command ce be cmd => (run S O (cmd.prog ce be env) w).2
  | .commandKilled ce be cmd n => runFor S O n (cmd.prog ce be env) w
  | .outside k => { w with env := k }

/-- the state after all that happened -/
def runHistory {σ K : Type} (S : StoreImpl σ) (O : Oracle K) (env : Env) : List (Happening K) → World σ K → World σ K
  | [], w => w
  | h :: hs, w => runHistory S O env hs (h.after S O env w)

/-- states reached from an empty store by some history, for some clock and environment. The process may have died within calls
and commands. -/
def Reachable {K : Type} (O : Oracle K) (env : Env) (w : World Store K) : Prop :=
  ∃ (clock : Nat → Time) (k : K) (hist : List (Happening K)),
    w = runHistory Store.impl O env hist { store := [], clock, tick := 0, env := k, trace := [] }

end Verif
