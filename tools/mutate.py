"""Runs the wrong programs of tools/mutants.py against the property theorems.

Usage: python3 tools/mutate.py [numbers...]   (works in /tmp/mut, never in /verif/lean)

For every wrong program: edit a scratch copy of the model, re-elaborate every module that depends on it, going on after
errors (a theorem whose proof fails ends up depending on `sorryAx` or on itself as axiom), then ask for the axioms of every property theorem.
With LIMIT=1 only the property modules that contain the theorems expected to fail are looked at.
Results are appended to /tmp/mut/results.jsonl."""
import concurrent.futures as cf, glob, json, os, re, shutil, subprocess, sys, threading, time
sys.path.insert(0, os.path.dirname(__file__))
import mutants

LEAN = '/verif/lean'
ROOT = os.environ.get('MUTROOT', '/tmp/mut')
WORKERS = int(os.environ.get('WORKERS', '3'))
TIMEOUT = int(os.environ.get('MODTIMEOUT', '240'))

MK = r'''
import Lean
open Lean Elab
unsafe def main (args : List String) : IO UInt32 := do
  let [src, mod, out] := args | return 2
  initSearchPath (← findSysroot)
  enableInitializersExecution
  let input ← IO.FS.readFile src
  let inputCtx := Parser.mkInputContext input src
  let (header, parserState, messages) ← Parser.parseHeader inputCtx
  let (env, messages) ← processHeader header {} messages inputCtx (mainModule := mod.toName)
  let s ← IO.processCommands inputCtx parserState (Command.mkState env messages {})
  let mut bad := false
  for m in s.commandState.messages.toList do
    if m.severity == .error then
      bad := true
      IO.println s!"ERR {m.pos.line}: {((← m.data.toString).take 150).replace "\n" " "}"
    if m.severity == .information && mod == "Q" then IO.println (← m.data.toString)
  if mod != "Q" then writeModule s.commandState.env out
  return if bad then 1 else 0
'''

def sh(cmd, **kw):
    return subprocess.run(cmd, shell=True, text=True, capture_output=True, **kw)

os.makedirs(ROOT, exist_ok=True)
open(f'{ROOT}/mk.lean', 'w').write(MK)
path = sh('lake env printenv LEAN_PATH', cwd=LEAN).stdout.strip().split(':')
OLEAN = f'{LEAN}/.lake/build/lib/lean'
rest = [p for p in path if os.path.realpath(p) != os.path.realpath(OLEAN)]

base = f'{ROOT}/base'
if not os.path.exists(base) or os.environ.get('FRESH'):
    shutil.rmtree(base, ignore_errors=True)
    os.makedirs(base)
    shutil.copytree(f'{LEAN}/Verif', f'{base}/src/Verif')
    shutil.copytree(f'{OLEAN}/Verif', f'{base}/lib/Verif')
    shutil.copy('/verif/MANIFEST.json', base)

mods = {}
for f in glob.glob(f'{base}/src/Verif/**/*.lean', recursive=True):
    name = f[len(f'{base}/src/'):-5].replace('/', '.')
    if name == 'Verif.Axioms': continue
    mods[name] = [m for m in re.findall(r'^import (Verif\.\S+)', open(f).read(), re.M)]
def theorems(n):
    space, out = [], []
    for l in open(f"{base}/src/{n.replace('.', '/')}.lean"):
        if m := re.match(r'namespace (\S+)', l): space.append(m.group(1))
        elif (m := re.match(r'end (\S+)', l)) and space and space[-1] == m.group(1): space.pop()
        elif m := re.match(r'theorem (\S+)', l): out.append(('.'.join(space) + '.' + m.group(1)).replace('Rypt.Props.', '', 1))
    return out
props = {n: theorems(n) for n in mods if n.startswith('Verif.Props.')}
claims = {}
for c in json.load(open(f'{base}/MANIFEST.json'))['claims']:
    for t in c['theorems']: claims.setdefault(t.replace('Rypt.Props.', '', 1), []).append(c['property'])

def downstream(m):
    out, todo = {m}, True
    while todo:
        todo = False
        for n, ims in mods.items():
            if n not in out and any(i in out for i in ims):
                out.add(n); todo = True
    return out

def thmline(name, lines):
    src = open(f"{base}/src/{name.replace('.', '/')}.lean").read().split('\n')
    out = []
    for l in lines:
        for i in range(l - 1, -1, -1):
            m = re.match(r'(?:private )?(?:theorem|def|example|instance|abbrev|inductive)\s*(\S*)', src[i]) if i < len(src) else None
            if m:
                out.append(m.group(1)); break
    return sorted(set(out))

def run(mu):
    work = f'{ROOT}/work'
    shutil.rmtree(work, ignore_errors=True)
    shutil.copytree(f'{base}/src', f'{work}/src')
    shutil.copytree(f'{base}/lib', f'{work}/lib', copy_function=os.link)
    mod = f"Verif.Model.{mu['module']}"
    f = f"{work}/src/{mod.replace('.', '/')}.lean"
    s = open(f).read()
    for o, n in mu['edits']:
        if s.count(o) != 1: return dict(n=mu['n'], error='edit does not apply')
        s = s.replace(o, n)
    open(f, 'w').write(s)
    todo = downstream(mod)
    look = [n for n in props if not os.environ.get('LIMIT') or any(t in props[n] for t in mu['expected'])]
    need, grow = set(look), True
    while grow:
        more = {i for n in need for i in mods.get(n, [])} - need
        need |= more; grow = bool(more)
    for n in todo:
        for g in glob.glob(f"{work}/lib/{n.replace('.', '/')}.*"):
            if re.match(r'.*/' + re.escape(n.split('.')[-1]) + r'\.(olean|ilean|trace|c|olean\..*|.*hash)$', g): os.remove(g)
    todo &= need
    env = dict(os.environ, LEAN_PATH=':'.join([f'{work}/lib'] + rest))
    errors, blocked, done = {}, set(), set(mods) - todo
    def build(n):
        src = f"{work}/src/{n.replace('.', '/')}.lean"
        out = f"{work}/lib/{n.replace('.', '/')}.olean"
        try:
            r = sh(f'exec timeout -k 5 {TIMEOUT} nice lean -M 8000 --run {ROOT}/mk.lean {src} {n} {out}', env=env)
        except Exception as e:
            return n, None, str(e)
        return n, r, None
    with cf.ThreadPoolExecutor(WORKERS) as ex:
        running, pending = set(), set(todo)
        while pending or running:
            for n in sorted(pending):
                if any(i in blocked for i in mods[n]):
                    pending.discard(n); blocked.add(n)
            for n in sorted(pending):
                if len(running) < WORKERS and all(i in done for i in mods[n]):
                    pending.discard(n); running.add(ex.submit(build, n))
            if not running: continue
            fin, running = cf.wait(running, return_when=cf.FIRST_COMPLETED)
            for fu in fin:
                n, r, e = fu.result()
                ls = [int(x) for x in re.findall(r'^ERR (\d+):', r.stdout, re.M)]
                if ls: errors[n] = (thmline(n, ls), r.stdout[:600])
                if not os.path.exists(f"{work}/lib/{n.replace('.', '/')}.olean"):
                    blocked.add(n); errors.setdefault(n, (['<none>'], 'no olean: rc %s %s %s' % (r.returncode, r.stdout[-200:], r.stderr[-200:])))
                else: done.add(n)
    ok = [n for n in look if n not in blocked]
    q = ''.join(f'import {n}\n' for n in ok) + ''.join(f'#print axioms Rypt.Props.{t}\n' for n in ok for t in props[n])
    open(f'{work}/Q.lean', 'w').write(q)
    r = sh(f'timeout 600 lean -M 8000 --run {ROOT}/mk.lean {work}/Q.lean Q {work}/q.olean', env=env)
    text = r.stdout
    good = set()
    for m in re.finditer(r"'Rypt\.Props\.(\S+)' (depends on axioms: \[([^\]]*)\]|does not depend on any axioms)", text):
        if set(re.findall(r'[^\s,]+', m.group(3) or '')) <= {'propext', 'Classical.choice', 'Quot.sound'}: good.add(m.group(1))
    alls = [t for n in look for t in props[n]]
    bad = [t for t in alls if t not in good]
    return dict(n=mu['n'], module=mu['module'], definition=mu['definition'], edit=mu['edit'], claim=mu['claim'], expected=mu['expected'],
                failed=[t for t in bad if t in claims], failed_other=[t for t in bad if t not in claims],
                survived_expected=[t for t in mu['expected'] if t in good],
                unknown_expected=[t for t in mu['expected'] if t not in alls],
                errors={k: v[0] for k, v in errors.items()}, detail={k: v[1] for k, v in errors.items()}, blocked=sorted(blocked))

if __name__ == '__main__':
    sel = [int(x) for x in sys.argv[1:]]
    donen = set()
    if os.path.exists(f'{ROOT}/results.jsonl') and not sel:
        donen = {json.loads(l)['n'] for l in open(f'{ROOT}/results.jsonl')}
    for mu in sorted(mutants.ALL, key=lambda m: len(downstream("Verif.Model." + m["module"]))):
        if (sel and mu['n'] not in sel) or mu['n'] in donen: continue
        t = time.time()
        res = run(mu)
        res['secs'] = round(time.time() - t)
        open(f'{ROOT}/results.jsonl', 'a').write(json.dumps(res, ensure_ascii=False) + '\n')
        print(res['n'], res.get('definition'), res['secs'], 'failed', len(res.get('failed', [])), 'SURVIVED' if res.get('survived_expected') else '', res.get('survived_expected'), res.get('unknown_expected'), 'blocked', res.get('blocked'), res.get('error', ''), flush=True)
