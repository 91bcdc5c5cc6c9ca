import Verif.Model.ProcThreads
/-!
# Specification: counting the mirrors in use
-/

namespace SyncStream.Spec

/-- The end signals among some messages: a mirror that is closed sends one, with an error or without. -/
def ends : List QMsg → Int
  | [] => 0
  | .close :: ms => ends ms + 1
  | .error _ :: ms => ends ms + 1
  | _ :: ms => ends ms

/-- How many mirrors the threads have been given. -/
def taken : List (Ev PCall PRet) → Int
  | [] => 0
  | .inv _ (.take _) :: tr => taken tr + 1
  | _ :: tr => taken tr

/-- The calls of the main process that hand out mirrors, receive, stop and use the buffer. -/
def OfMain : PCall → Prop
  | .take _ | .receive | .stopAll | .buffer _ => True
  | _ => False

/-- The messages waiting for the main buffer. -/
def waiting (w : PWorld) : List QMsg := w.net.queues w.main.mirror.queue

/-- `n_mirrors` is right after `tr`: it has grown by the mirrors handed out, and shrunk by the end signals received
(those that were waiting and are not waiting any more). -/
def Counted (w : PWorld) (tr : List (Ev PCall PRet)) (w' : PWorld) : Prop :=
  w'.main.nMirrors = w.main.nMirrors + taken tr - (ends (waiting w) - ends (waiting w'))

end SyncStream.Spec
