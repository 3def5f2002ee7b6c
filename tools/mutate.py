import json,subprocess,sys,re,os,time
W='/tmp/mut/lean'
def sh(c,t=2400): 
    return subprocess.run(c,shell=True,capture_output=True,text=True,timeout=t)
def reset():
    sh(f'rsync -a --delete /verif/lean/ {W}/') if os.path.exists('/usr/bin/rsync') else sh(f'rm -rf {W}; cp -a /tmp/mut/base {W}')
def decl_at(path,line):
    ls=open(path).read().split('\n')
    for i in range(min(line,len(ls))-1,-1,-1):
        m=re.match(r'(?:@\[[^\]]*\]\s*)?(?:private |protected |noncomputable )*(theorem|def|example|instance|lemma|inductive|structure)\s*([^\s:({\[]*)',ls[i])
        if m: return (m.group(2) or m.group(1))+('' if m.group(2) else f'@{i+1}')
    return '?'
out=open('/tmp/mut/results.jsonl','a')
for m in json.load(open(sys.argv[1])):
    reset()
    p=f"{W}/{m['file']}"
    s=open(p).read()
    if s.count(m['old'])!=1:
        print('BAD',m['id'],s.count(m['old'])); continue
    open(p,'w').write(s.replace(m['old'],m['new']))
    t=time.time()
    import signal,threading
    pr=subprocess.Popen(f'cd {W} && exec nice lake build 2>&1',shell=True,stdout=subprocess.PIPE,text=True,start_new_session=True)
    got=[];seen=[0]
    def rd():
        for l in pr.stdout: got.append(l.rstrip('\n')); seen[0]=seen[0] or (time.time() if l.startswith('error: Verif') else 0)
    th=threading.Thread(target=rd);th.start()
    while pr.poll() is None and time.time()-t<2400:
        time.sleep(1)
        if seen[0] and time.time()-seen[0]>5: os.killpg(pr.pid,signal.SIGKILL); break
    pr.wait();th.join(10)
    class R: pass
    r=R(); r.stdout='\n'.join(got); r.returncode=pr.returncode
    fails={}
    for l in r.stdout.split('\n'):
        x=re.match(r'error: (Verif/\S+\.lean):(\d+):(\d+): (.*)',l)
        if x:
            fails.setdefault(x.group(1),[])
            d=decl_at(f'{W}/{x.group(1)}',int(x.group(2)))
            if d not in fails[x.group(1)]: fails[x.group(1)].append(d)
    res=dict(m,fails=fails,ok=r.returncode==0,wall=round(time.time()-t))
    out.write(json.dumps(res,ensure_ascii=False)+'\n'); out.flush()
    print(m['id'],'SURVIVED' if r.returncode==0 else json.dumps(fails))
