#!/usr/bin/env python3
"""Run the model over the gcode files of the repository's tests.

tests/test_parsing.py reads every file of tests/test-files/linuxcnc and expects a Machine to process all
its lines; the README of the subdirectory `unsupported` says that processing its files raises
MachineInvalidState.  This evaluates `Machine.processStr` of the model on the lines of the same files and
compares.  Needs a built lean/ (lake build).
"""
import os, subprocess, sys, tempfile

HERE = os.path.dirname(os.path.abspath(__file__))
LEAN = os.path.join(HERE, '..', 'lean')
FILES = sys.argv[1] if len(sys.argv) > 1 else '/repo/tests/test-files/linuxcnc'

SRC = r'''
import Verif.Model.Machine
import Verif.Model.File
open Pygcode

def go (m : Machine) (i : Nat) : List (List Char) → Nat × Option Err
  | [] => (i, none)
  | l :: ls => match m.processStr l with
    | (m', none) => go m' (i + 1) ls
    | (_, some e) => (i + 1, some e)

def runFile (want : Option Err) (p : System.FilePath) : IO Bool := do
  let s ← IO.FS.readFile p
  let r := go Machine.new 0 (fileLines s.toList)
  let good := r.2 == want
  IO.println s!"{if good then "ok  " else "BAD "} {p}: {r.1} lines, {repr r.2}"
  return good

def main : IO Unit := do
  let mut n := 0
  let mut bad := 0
  for (d, want) in [("@D@", none), ("@D@/unsupported", some Err.invalidState)] do
    for e in (← System.FilePath.readDir d) do
      if (e.path.extension.getD "") ∈ ["tap", "nc", "ngc", "gcode"] then
        n := n + 1
        unless (← runFile want e.path) do bad := bad + 1
  IO.println s!"{n} files, {bad} not as expected"

#eval main
'''

with tempfile.TemporaryDirectory() as d:
    f = os.path.join(d, 'Corpus.lean')
    with open(f, 'w') as fh:
        fh.write(SRC.replace('@D@', FILES))
    out = subprocess.run(['lake', 'env', 'lean', f], cwd=LEAN, capture_output=True, text=True)
print(out.stdout + out.stderr, end='')
sys.exit(0 if ' 0 not as expected' in out.stdout else 1)
