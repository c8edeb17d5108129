"""usage: probe.py mutants.json out.jsonl scratch src [probe.lean.txt | probe2.lean.txt] -- apply each edit, build the model only, run the probe and
record the property theorems of which a concrete instance changed (i.e. which are false of the edited model)."""
import json, subprocess, sys, os
muts = json.load(open(sys.argv[1])); out, S, src = sys.argv[2:5]
def sh(c, **k): return subprocess.run(c, shell=True, capture_output=True, text=True, **k)
if not os.path.exists(S): sh(f'cp -r {src} {S}')
here = os.path.dirname(os.path.abspath(__file__))
PROBE = sys.argv[5] if len(sys.argv) > 5 else 'probe.lean.txt'
MODS = ' '.join(l.split()[1] for l in open(f'{here}/{PROBE}') if l.startswith('import '))
sh(f'cp {here}/{PROBE} {S}/Probe_.lean')
def run():
    r = sh(f'cd {S} && lake build {MODS}')
    if r.returncode: return None, (r.stdout + r.stderr)[-800:]
    try: p = sh(f'cd {S} && lake env lean --run Probe_.lean', timeout=200)
    except subprocess.TimeoutExpired: return None, 'probe timeout'
    return p.stdout.split('\n'), p.stderr[-300:]
def sync(): sh(f'cp -r {src}/Verif {S}/')
sync(); base, err = run()
assert base and len(base) > 50, err
for m in muts:
    sync()
    p = f"{S}/Verif/{m['file']}"; s = open(p).read()
    if s.count(m['old']) < 1: print('BAD', m['id']); continue
    k = m.get('nth', 1); parts = s.split(m['old'])
    open(p, 'w').write(m['old'].join(parts[:k]) + m['new'] + m['old'].join(parts[k:]))
    got, err = run()
    if got is None: diff = ['BUILD: ' + err]
    else:
        diff = []
        for a, b in zip(base, got):
            if a != b and a.split(' |')[0] not in diff: diff.append(a.split(' |')[0])
        if len(base) != len(got): diff.append('LENGTH ' + err)
    open(out, 'a').write(json.dumps({'id': m['id'], 'falsified': diff}) + '\n')
    print(m['id'], diff if diff else '*** NOTHING ***', flush=True)
sync()
