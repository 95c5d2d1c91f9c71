"""Mutation testing in a scratch copy: python3 tools/mutate.py mutations.json
mutations: list of {file, def, old, new, claim}.  Appends one line per attempt to seeded/LOG.jsonl."""
import json, os, re, shutil, signal, subprocess, sys, threading, time
SRC, DST = '/verif/lean', '/tmp/mut/lean'
os.makedirs('/tmp/mut', exist_ok=True)
subprocess.check_call(['rsync', '-a', '--delete', SRC + '/', DST + '/'] if shutil.which('rsync') else
                      ['sh', '-c', f'rm -rf {DST} && cp -a {SRC} {DST}'])
SNAP = '/tmp/mut/snap'
subprocess.check_call(['sh', '-c', f'rm -rf {SNAP} && cp -a {SRC}/.lake/build {SNAP}'])
def restore():
    subprocess.check_call(['sh', '-c', f'rm -rf {DST}/.lake/build && cp -a {SNAP} {DST}/.lake/build'])
def decl_at(path, line):
    lines = open(path).read().split('\n')
    for k in range(min(line, len(lines)) - 1, -1, -1):
        m = re.match(r'\s*(?:private )?(theorem|def|example|lemma|instance)\s*(\S*)', lines[k])
        if m: return m.group(2) if m.group(1) != 'example' else f'example@{os.path.basename(path)}:{k+1}'
    return '?'
def build():
    """lake build, stopped a few seconds after the first failing module"""
    q = subprocess.Popen(['lake', 'build'], cwd=DST, stdout=subprocess.PIPE, stderr=subprocess.STDOUT, text=True, start_new_session=True)
    lines, first = [], []
    def kill():
        time.sleep(8)
        try: os.killpg(q.pid, signal.SIGKILL)
        except ProcessLookupError: pass
    for line in q.stdout:
        lines.append(line)
        if line.startswith('error: Verif/') and not first:
            first.append(1)
            threading.Thread(target=kill, daemon=True).start()
    q.wait()
    return (1 if first else q.returncode), ''.join(lines)
for mu in json.load(open(sys.argv[1])):
    p = f"{DST}/{mu['file']}"
    orig = open(p).read()
    if orig.count(mu['old']) != 1:
        print('BAD PATTERN', mu['def'], orig.count(mu['old'])); continue
    open(p, 'w').write(orig.replace(mu['old'], mu['new']))
    rc, out = build()
    failed = []
    for m in re.finditer(r'error: (Verif/\S+?\.lean):(\d+):', out):
        d = decl_at(f'{DST}/{m.group(1)}', int(m.group(2)))
        if d not in failed: failed.append(d)
    open(p, 'w').write(orig)
    restore()
    rec = {'definition': mu['def'], 'edit': mu.get('edit') or f"{mu['old']} -> {mu['new']}", 'claim': mu['claim'],
           'failed': failed[:12], 'survived': rc == 0, 'tightened': mu.get('tightened', [])}
    print(('SURVIVED ' if rc == 0 else 'killed   ') + mu['def'] + ' : ' + ', '.join(failed[:4]), flush=True)
    open('/verif/seeded/LOG.jsonl', 'a').write(json.dumps(rec, ensure_ascii=False) + '\n')
