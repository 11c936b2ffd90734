import Verif.Model.Logger
/-
What log statements are supposed to do, said without the thread-local machinery.
-/
namespace Falcon.Logger
open Falcon.Log (Str Msg)

/-- Statements that do not contain other statements. -/
inductive Stm where
  | log (file : Str) (line lvl : Int) (cat : Option Str) (ps : List Piece)  -- LOG(lvl) [<< LOG_CAT(cat)] << p1 << p2 ...
  | block (file : Str) (line lvl : Int) (ps : List Piece)                   -- LOG_BLOCK(lvl) { LOGGER << p1; ... }
  | category (c : Str)
  | level (n : Int)
  deriving DecidableEq, Repr

/-- Source form. -/
def Stm.toOp : Stm → Op
  | .log f l lvl none ps     => .log f l lvl (ps.map Op.put)
  | .log f l lvl (some c) ps => .log f l lvl (Op.putCat c :: ps.map Op.put)
  | .block f l lvl ps        => .block f l lvl (ps.map Op.lput) false
  | .category c              => .setCategory c
  | .level n                 => .level n

/-- Text of plain pieces: strings as they are, numbers in decimal. -/
def plainText : List Piece → Str
  | []             => []
  | .text s :: ps  => s ++ plainText ps
  | .num n :: ps   => Nat.toDigits 10 n ++ plainText ps
  | _ :: ps        => plainText ps

def Piece.isPlain : Piece → Bool
  | .text _ | .num _ => true
  | _                => false

def Stm.isPlain : Stm → Bool
  | .log _ _ _ _ ps => ps.all Piece.isPlain
  | .block _ _ _ ps => ps.all Piece.isPlain
  | _               => true

/-- Category of a message: the one given for this message, if any, else the thread's. -/
def msgCat (cat : Str) : Option Str → Str
  | none   => cat
  | some c => if c = [] then cat else c

/-- What must be emitted under compile-time level `min`, general level `lv` and thread category `cat`. -/
def Stm.emits (min lv : Int) (cat : Str) : Stm → List Msg
  | .log f l lvl tc ps =>
    if lvl ≤ min ∧ lvl ≤ lv then
      [{ file := f, line := l, level := lvl, text := plainText ps,
         cat := msgCat cat tc }]
    else []
  | .block f l lvl ps =>
    if lvl ≤ min ∧ lvl ≤ lv then [{ file := f, line := l, level := lvl, text := plainText ps, cat := cat }] else []
  | _ => []

def Stm.newLevel (lv : Int) : Stm → Int
  | .level n => n
  | _        => lv

def Stm.newCat (cat : Str) : Stm → Str
  | .category c => c
  | _           => cat

/-- All messages of a sequence of statements. -/
def emitsAll (min : Int) : Int → Str → List Stm → List Msg
  | _, _, []        => []
  | lv, cat, s :: ss => s.emits min lv cat ++ emitsAll min (s.newLevel lv) (s.newCat cat) ss

/-- Messages of thread `i`. -/
def outOf (w : W) (i : Nat) : List Msg := (w.out.filter fun p => p.1 = i).map Prod.snd

/-- Thread `i` alone gets from `w` to `w'`. -/
def Runs (min : Int) (i : Nat) (w w' : W) : Prop := ∃ k, runS min w (List.replicate k i) = w'

/-- The thread has nothing half composed: as at the start of the thread. -/
def Ready (t : Tls) : Prop := t.composer = [] ∧ t.isHex = false ∧ t.bad = false ∧ t.temp = []

end Falcon.Logger
