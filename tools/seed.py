"""Seeded-bug harness.  usage: seed.py mutants.json out.jsonl [scratch]
Copies /verif/lean to a scratch directory, applies one edit at a time, rebuilds, and records which theorems stop
checking (direct errors) and which property theorems are thereby lost (their module no longer builds)."""
import json, re, subprocess, sys, os, shutil
muts = json.load(open(sys.argv[1])); out = sys.argv[2]
S = sys.argv[3] if len(sys.argv) > 3 else '/tmp/seed'
src = sys.argv[4] if len(sys.argv) > 4 else '/verif/lean'
def sh(c, **k): return subprocess.run(c, shell=True, capture_output=True, text=True, **k)
if not os.path.exists(S): sh(f'cp -r {src} {S}')
def sync():
    sh(f'rsync -rc --exclude .lake {src}/ {S}/') if shutil.which('rsync') else sh(f'cp -r {src}/Verif {src}/Verif.lean {S}/')
done = set()
if os.path.exists(out): done = {json.loads(l)['id'] for l in open(out)}
def enclosing(f, line):
    name = None
    for i, l in enumerate(open(f'{S}/{f}'), 1):
        if i > line: break
        m = re.match(r'(?:private )?(theorem|example|def|lemma|structure|inductive)\s*(\S*)', l)
        if m: name = m.group(2) if m.group(1) != 'example' else f'example@{os.path.basename(f)}:{i}'
    return name
for m in muts:
    if m['id'] in done: continue
    sync()
    p = f"{S}/Verif/{m['file']}"
    s = open(p).read()
    if s.count(m['old']) < 1 or (s.count(m['old']) != 1 and 'nth' not in m):
        print('BAD', m['id'], s.count(m['old'])); continue
    if 'nth' in m:
        parts = s.split(m['old']); k = m['nth']
        s = m['old'].join(parts[:k]) + m['new'] + m['old'].join(parts[k:])
    else: s = s.replace(m['old'], m['new'])
    open(p, 'w').write(s)
    r = sh(f'cd {S} && nice lake build', timeout=3000)
    txt = r.stdout + r.stderr
    direct = []
    for e in re.finditer(r'error: (Verif/\S+?\.lean):(\d+):', txt):
        n = enclosing(e.group(1), int(e.group(2)))
        if n and n not in direct: direct.append(n)
    # property theorems in modules that were built (have an olean newer) : ask lake per module
    lost = []
    for f in sorted(os.listdir(f'{S}/Verif/Props')):
        mod = f[:-5]
        rr = sh(f'cd {S} && lake build --no-build Verif.Props.{mod}')
        if rr.returncode != 0: lost.append(mod)
    json.dump({'id': m['id'], 'def': m['def'], 'edit': m['edit'], 'claim': m['claim'], 'failed': direct, 'lost_modules': lost,
               'build_ok': r.returncode == 0}, open(out, 'a')); open(out, 'a').write('\n')
    print(m['id'], 'OK-SURVIVED' if r.returncode == 0 else 'killed', direct[:6], lost, flush=True)
