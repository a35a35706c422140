#!/usr/bin/env python3
"""Apply wrong-program edits to a scratch copy of the model, rebuild, report which theorems fail.

usage: mutate.py MUTATIONS.json [--scratch DIR] [--log LOG.jsonl] [--only 1,2] [--fresh]
Each mutation: {"file", "definition", "old", "new", "edit", "claim", "expect": [theorem names]}

A helper lemma that fails after the edit is replaced by `sorry` in the scratch copy and the build goes on, so
that every property theorem is tried.  A property theorem counts as failed if its own proof fails or if its
proof depends on a lemma that failed.  The second case can overstate: a lemma may stay true and only need
another proof.
"""
import json, os, re, subprocess, glob, argparse
ap = argparse.ArgumentParser()
ap.add_argument('file'); ap.add_argument('--scratch', default='/tmp/mut'); ap.add_argument('--log', default='/tmp/mut/log2.jsonl')
ap.add_argument('--only', default=None); ap.add_argument('--fresh', action='store_true'); ap.add_argument('--rounds', type=int, default=12)
ap.add_argument('--props', default=None, help='build only these modules of Verif/Props (quicker; theorems elsewhere are not tried)')
a = ap.parse_args()
DEPS = r'''import Verif
/-! Prints, for every property theorem, whether its proof depends on `sorryAx` (used on scratch copies only). -/
open Lean
run_meta do
  let env ← getEnv
  for (n, ci) in env.constants.map₁.toList do
    if n.getPrefix == `CM then
      let s := n.getString!
      if s.startsWith "C" && s.length > 4 && (s.toList.getD 1 'x').isDigit && (s.toList.getD 3 'x') == '_' then
        match ci with
        | .thmInfo _ =>
          let ax ← collectAxioms n
          IO.println s!"{n.getString!} {ax.contains ``sorryAx}"
        | _ => pure ()
'''
DEPS2 = r'''import Verif
open Lean
def names : List String := [NAMES]
partial def go (env : Environment) (bad : NameSet) (memo : IO.Ref (NameMap Bool)) (n : Name) : IO Bool := do
  if bad.contains n then return true
  if let some b := (← memo.get).find? n then return b
  memo.modify (·.insert n false)
  let some ci := env.find? n | return false
  let used := ci.type.getUsedConstants ++ (match ci.value? (allowOpaque := true) with | some v => v.getUsedConstants | none => #[])
  let mut r := false
  for u in used do
    if (`CM).isPrefixOf u || (`Spec).isPrefixOf u || (u.toString.startsWith "_private") then
      if ← go env bad memo u then r := true; break
  memo.modify (·.insert n r)
  return r
run_meta do
  let env ← getEnv
  let bad : NameSet := names.foldl (fun s x => s.insert (`CM ++ x.toName)) {}
  let memo ← IO.mkRef ({} : NameMap Bool)
  for (n, ci) in env.constants.map₁.toList do
    if n.getPrefix == `CM then
      let s := n.getString!
      if s.startsWith "C" && s.length > 4 && (s.toList.getD 1 'x').isDigit && (s.toList.getD 3 'x') == '_' then
        match ci with
        | .thmInfo _ => if ← go env bad memo n then IO.println s
        | _ => pure ()
'''
SRC = '/verif/lean'; DST = a.scratch + '/lean'
if a.fresh or not os.path.isdir(DST):
    subprocess.run(['rm', '-rf', DST]); subprocess.run(['mkdir', '-p', a.scratch]); subprocess.run(['cp', '-a', SRC, DST], check=True)
    top = open(DST + '/Verif.lean').read()  # the tests of the model are left out
    open(DST + '/Verif.lean', 'w').write(''.join(l for l in top.splitlines(True) if 'Verif.Check' not in l and
        (not a.props or 'Verif.Props' not in l or l.strip().split('.')[-1] in a.props.split(','))))
START = re.compile(r'^(?:@\[[^\]]*\]\s*)?(?:private |protected |noncomputable )*(theorem|lemma|def|example|instance|abbrev)\b\s*([\w.₀-ₜ\']*)')
TOP = re.compile(r'^\S')
def chunk(lines, line):
    """the declaration that contains line number `line` (1-based): (start, end, kind, name)"""
    i = min(line, len(lines)) - 1
    while i > 0 and not START.match(lines[i]): i -= 1
    m = START.match(lines[i])
    if not m: return None
    j = i + 1
    while j < len(lines) and not TOP.match(lines[j]): j += 1
    return i, j, m.group(1), m.group(2) or 'example'
def cut(text):
    """signature of a declaration, without its proof"""
    d = 0; k = 0
    while k < len(text):
        c = text[k]
        m = re.match(r"'(?:\\[^']+|\\'|[^\\'])'|\"(?:\\.|[^\\\"])*\"", text[k:])
        if m and not (c == "'" and k and (text[k - 1].isalnum() or text[k - 1] in "_'₀₁₂")): k += len(m.group(0)); continue
        if c in '([{⟨': d += 1
        elif c in ')]}⟩': d -= 1
        elif d == 0 and text.startswith(':=', k) and not re.search(r'\b(let|have)\s+[^:;\n]*(: [^;\n]*)?$', text[:k].split('\n')[-1]):
            return text[:k].rstrip()
        elif d == 0 and re.match(r'\n\s+\| ', text[k:k + 40]) and not re.search(r'\bmatch\b', text[:k]): return text[:k].rstrip()
        k += 1
    return None
ms = json.load(open(a.file))
for k, m in enumerate(ms):
    if a.only and str(k) not in a.only.split(','): continue
    path = f"{DST}/Verif/Model/{m['file']}"
    saved = {path: open(path).read()}
    if saved[path].count(m['old']) != 1:
        print(k, 'BAD MATCH', m['definition'], saved[path].count(m['old'])); continue
    open(path, 'w').write(saved[path].replace(m['old'], m['new']))
    failing = []; status = 'ok'; aside = set()
    for rnd in range(a.rounds):
        r = subprocess.run(['lake', 'build'], cwd=DST, capture_output=True, text=True)
        if r.returncode == 0: break
        errs = {}
        for f, l in re.findall(r'error: (Verif/[\w/]+\.lean):(\d+):', r.stdout + r.stderr): errs.setdefault(f, set()).add(int(l))
        killed = re.findall(r'Building (Verif\.\S+) .*\n(?:trace.*\n)?error: Lean exited with code 137', r.stdout)
        if not errs and killed:
            # evaluating a statement ran out of memory: set the evaluated statements of that file aside.
            # Nothing is known about them, so they are listed separately and not counted as failed.
            for mod in killed:
                f = mod.replace('.', '/') + '.lean'; lines = open(f'{DST}/{f}').read().split('\n')
                for i, x in enumerate(lines):
                    if 'decide +kernel' in x and 'sorry' not in x:
                        errs.setdefault(f, set()).add(i + 1); c = chunk(lines, i + 1)
                        if c: aside.add(c[3])
        if not errs: status = 'build failed'; print(r.stdout[-600:], r.stderr[-300:]); break
        if any(f.startswith('Verif/Model') or f.startswith('Verif/Spec') for f in errs): status = 'model broken'; break
        stuck = False
        for f, ls in errs.items():
            p = DST + '/' + f
            text = open(p).read(); saved.setdefault(p, text)
            lines = text.split('\n'); seen = {}
            for l in sorted(ls):
                c = chunk(lines, l)
                if c is None: stuck = True; continue
                seen[c[0]] = c
            for i, j, kind, name in sorted(seen.values(), reverse=True):
                body = '\n'.join(lines[i:j])
                failing.append(f'{f}: {name}')
                if kind == 'example': new = 'example : True := trivial\n'
                else:
                    sig = cut(body)
                    if sig is None or kind not in ('theorem', 'lemma'): stuck = True; continue
                    if ':= by sorry' in body: stuck = True; print('STUCK', r.stdout[r.stdout.find('error:'):][:900])
                    new = sig + ' := by sorry\n'
                lines[i:j] = new.split('\n')
            open(p, 'w').write('\n'.join(lines))
        if stuck: status = 'stuck'; break
    else: status = 'rounds exhausted'
    failed = {x.split(': ')[1] for x in failing if re.match(r'C\d\d_', x.split(': ')[1])}
    if status == 'ok':
        open(a.scratch + '/deps.lean', 'w').write(DEPS)
        r = subprocess.run(['lake', 'env', 'lean', a.scratch + '/deps.lean'], cwd=DST, capture_output=True, text=True)
        for l in r.stdout.splitlines():
            w = l.split()
            if len(w) == 2 and w[1] == 'true': failed.add(w[0])
    if status == 'stuck':
        # a failing proof could not be replaced: take the property theorems whose proofs, in the unedited project, use a failing lemma
        names = sorted({x.split(': ')[1] for x in failing if x.split(': ')[1] != 'example'})
        open(a.scratch + '/deps2.lean', 'w').write(DEPS2.replace('NAMES', ', '.join('"' + n + '"' for n in names)))
        r = subprocess.run(['lake', 'env', 'lean', a.scratch + '/deps2.lean'], cwd=SRC, capture_output=True, text=True)
        failed |= set(r.stdout.split())
    failed -= aside
    props = re.findall(r'C\d\d(?!\d|_)', m['claim'])
    missing = [e for e in m.get('expect', []) if e not in failed] + [p for p in props if not any(t.startswith(p) for t in failed)]
    rec = {'definition': m['definition'], 'edit': m['edit'], 'claim': m['claim'], 'status': status, 'failing_declarations': failing,
           'failed_theorems': sorted(failed), 'survived': missing, 'tightened': m.get('tightened', []),
           'out_of_memory': sorted(aside)}
    open(a.log, 'a').write(json.dumps(rec, ensure_ascii=False) + '\n')
    print(k, m['definition'], status, '| survived:', missing, '| failed:', sorted(failed)[:8], len(failed), '| errs:', failing[:6], flush=True)
    for p, t in saved.items(): open(p, 'w').write(t)
